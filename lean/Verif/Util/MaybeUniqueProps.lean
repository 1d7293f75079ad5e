import Verif.Util.MaybeUnique
/-!
# C82: every object has one owner and is deleted once
-/
namespace Phasar.MaybeUnique

/-- Who may own an object. -/
inductive Owner where
  | ptr (p : Nat)
  | unique (u : Nat)
  | client
deriving DecidableEq

/-- Specification: who owns an object. -/
def Owns (s : St) : Owner → Nat → Prop
  | .ptr p, o => s.ptr p = some (some o, true)
  | .unique u, o => s.uq u = some o
  | .client, o => o ∈ s.raw

/-- Specification: the programs that obey the rules, and the state after them; `none` after undefined behaviour. -/
inductive Run : Option St → Prop
  | init : Run (some .init)
  | step {s op} : Run (some s) → s.Pre op → Run (s.step op)

/-- The invariant. -/
structure C82.Inv (s : St) : Prop where
  nodup : (s.live ++ s.dead).Nodup
  ids : ∀ o, o ∈ s.live ++ s.dead ↔ o < s.next
  raw : s.raw.Nodup
  flag : ∀ p, s.ptr p ≠ some (none, true)
  live : ∀ w o, Owns s w o → o ∈ s.live
  unique : ∀ w w' o, Owns s w o → Owns s w' o → w = w'
  owned : ∀ o ∈ s.live, ∃ w, Owns s w o

theorem C82.set_same {α : Type} (f : Nat → α) (i : Nat) (x : α) : set f i x i = x := if_pos rfl

theorem C82.set_ne {α : Type} (f : Nat → α) {i j : Nat} (x : α) (h : j ≠ i) : set f i x j = f j := if_neg h

/-- A step that only hands ownership around. -/
theorem C82.move {s s' : St} (h : C82.Inv s) (hn : s'.next = s.next) (hl : s'.live = s.live) (hd : s'.dead = s.dead) (hr : s'.raw.Nodup)
    (hf : ∀ p, s'.ptr p ≠ some (none, true)) (π : Owner → Owner) (hπ : ∀ w w', π w = π w' → w = w')
    (ho : ∀ w o, Owns s' w o ↔ Owns s (π w) o) (hs : ∀ w o, Owns s w o → ∃ w', π w' = w) : C82.Inv s' where
  nodup := by rw [hl, hd]; exact h.nodup
  ids o := by rw [hl, hd, hn]; exact h.ids o
  raw := hr
  flag := hf
  live w o hw := by rw [hl]; exact h.live _ o ((ho w o).1 hw)
  unique w w' o h1 h2 := hπ _ _ (h.unique _ _ o ((ho w o).1 h1) ((ho w' o).1 h2))
  owned o hlo := by
    rw [hl] at hlo
    obtain ⟨w, hw⟩ := h.owned o hlo
    obtain ⟨w', rfl⟩ := hs w o hw
    exact ⟨w', (ho w' o).2 hw⟩

/-- An object goes from one owner to another. -/
theorem C82.hand {s s' : St} (h : C82.Inv s) (hn : s'.next = s.next) (hl : s'.live = s.live) (hd : s'.dead = s.dead) (hr : s'.raw.Nodup)
    (hf : ∀ p, s'.ptr p ≠ some (none, true)) (x : Nat) (a b : Owner) (ha : Owns s a x)
    (ho : ∀ w o, Owns s' w o ↔ (o = x ∧ w = b) ∨ (o ≠ x ∧ Owns s w o)) : C82.Inv s' where
  nodup := by rw [hl, hd]; exact h.nodup
  ids o := by rw [hl, hd, hn]; exact h.ids o
  raw := hr
  flag := hf
  live w o hw := by
    rw [hl]
    rcases (ho w o).1 hw with ⟨rfl, _⟩ | ⟨_, hw⟩
    · exact h.live a o ha
    · exact h.live w o hw
  unique w w' o h1 h2 := by
    rcases (ho w o).1 h1 with ⟨e1, e2⟩ | ⟨e1, e2⟩ <;> rcases (ho w' o).1 h2 with ⟨e3, e4⟩ | ⟨e3, e4⟩
    · exact e2.trans e4.symm
    · exact absurd e1 e3
    · exact absurd e3 e1
    · exact h.unique w w' o e2 e4
  owned o hlo := by
    by_cases e : o = x
    · exact ⟨b, (ho b o).2 (.inl ⟨e, rfl⟩)⟩
    · obtain ⟨w, hw⟩ := h.owned o (hl ▸ hlo)
      exact ⟨w, (ho w o).2 (.inr ⟨e, hw⟩)⟩

/-- An object is deleted by its owner. -/
theorem C82.delete {s s' : St} (h : C82.Inv s) (x : Nat) (hx : ∃ w, Owns s w x) (hn : s'.next = s.next) (hl : s'.live = s.live.erase x)
    (hd : s'.dead = x :: s.dead) (hr : s'.raw.Nodup) (hf : ∀ p, s'.ptr p ≠ some (none, true))
    (ho : ∀ w o, Owns s' w o ↔ o ≠ x ∧ Owns s w o) : C82.Inv s' := by
  obtain ⟨w0, hw0⟩ := hx
  have hxl := h.live w0 x hw0
  have hnl : s.live.Nodup := (List.nodup_append.1 h.nodup).1
  have hp : (s.live.erase x ++ x :: s.dead).Perm (s.live ++ s.dead) :=
    List.perm_middle.trans (((List.perm_cons_erase hxl).symm).append_right s.dead)
  refine ⟨?_, ?_, hr, hf, ?_, ?_, ?_⟩
  · rw [hl, hd]; exact hp.nodup_iff.2 h.nodup
  · intro o; rw [hl, hd, hn, hp.mem_iff]; exact h.ids o
  · intro w o hw
    obtain ⟨h1, h2⟩ := (ho w o).1 hw
    rw [hl]
    exact (List.mem_erase_of_ne h1).2 (h.live w o h2)
  · intro w w' o h1 h2
    exact h.unique w w' o ((ho w o).1 h1).2 ((ho w' o).1 h2).2
  · intro o hlo
    rw [hl] at hlo
    have hne : o ≠ x := fun e => by subst e; exact absurd hlo hnl.not_mem_erase
    obtain ⟨w, hw⟩ := h.owned o (List.mem_of_mem_erase hlo)
    exact ⟨w, (ho w o).2 ⟨hne, hw⟩⟩

/-- Two owners exchange what they own. -/
def C82.tr (a b w : Owner) : Owner := if w = a then b else if w = b then a else w

theorem C82.trans {s s' : St} (h : C82.Inv s) (hn : s'.next = s.next) (hl : s'.live = s.live) (hd : s'.dead = s.dead) (hr : s'.raw.Nodup)
    (hf : ∀ p, s'.ptr p ≠ some (none, true)) (a b : Owner) (ho : ∀ w o, Owns s' w o ↔ Owns s (C82.tr a b w) o) : C82.Inv s' := by
  have invol : ∀ w, C82.tr a b (C82.tr a b w) = w := by
    intro w
    unfold C82.tr
    by_cases h1 : w = a
    · subst h1
      by_cases h2 : b = w
      · simp [h2]
      · simp [h2]
    · by_cases h2 : w = b
      · simp [h2]
      · simp [h1, h2]
  exact C82.move h hn hl hd hr hf (C82.tr a b) (fun w w' e => by rw [← invol w, e, invol]) ho (fun w _ _ => ⟨C82.tr a b w, invol w⟩)

/-- Nothing that is owned changes. -/
theorem C82.same {s s' : St} (h : C82.Inv s) (hn : s'.next = s.next) (hl : s'.live = s.live) (hd : s'.dead = s.dead) (hr : s'.raw.Nodup)
    (hf : ∀ p, s'.ptr p ≠ some (none, true)) (ho : ∀ w o, Owns s' w o ↔ Owns s w o) : C82.Inv s' :=
  C82.move h hn hl hd hr hf id (fun _ _ e => e) ho (fun w _ _ => ⟨w, rfl⟩)

theorem C82.flag_set {s : St} (h : ∀ p, s.ptr p ≠ some (none, true)) (p : Nat) (x : Option Data) (hx : x ≠ some (none, true)) (q : Nat) :
    set s.ptr p x q ≠ some (none, true) := by
  by_cases e : q = p
  · subst e; rw [C82.set_same]; exact hx
  · rw [C82.set_ne _ _ e]; exact h q

theorem C82.mem_raw {s : St} (h : s.raw.Nodup) (x o : Nat) : o ∈ s.raw.erase x ↔ o ≠ x ∧ o ∈ s.raw := h.mem_erase_iff

/-- A pointer lets go of what it owns. -/
theorem C82.dropped {s : St} (h : C82.Inv s) {p : Nat} {d : Data} (hp : s.ptr p = some d) (x : Option Data)
    (hx : ∀ o, x ≠ some (o, true)) : ∃ s', s.drop d = some s' ∧ s'.ptr = s.ptr ∧ s'.uq = s.uq ∧ C82.Inv { s' with ptr := set s.ptr p x } := by
  obtain ⟨o, b⟩ := d
  cases b with
  | false =>
    refine ⟨s, by unfold St.drop; cases o <;> rfl, rfl, rfl, ?_⟩
    refine C82.same h rfl rfl rfl h.raw (C82.flag_set h.flag p x (hx _)) fun w y => ?_
    cases w with
    | ptr q =>
      show set s.ptr p x q = _ ↔ s.ptr q = _
      by_cases e : q = p
      · subst e
        rw [C82.set_same, hp]
        exact ⟨fun e => absurd e (hx _), fun e => by injection e with e; injection e with _ e; exact nomatch e⟩
      · rw [C82.set_ne _ _ e]
    | unique u => exact Iff.rfl
    | client => exact Iff.rfl
  | true =>
    cases o with
    | none => exact absurd hp (h.flag p)
    | some o =>
      have hw : Owns s (.ptr p) o := hp
      have hl := h.live _ o hw
      refine ⟨{ s with live := s.live.erase o, dead := o :: s.dead }, if_pos hl, rfl, rfl, ?_⟩
      refine C82.delete h o ⟨_, hw⟩ rfl rfl rfl h.raw (C82.flag_set h.flag p x (hx _)) fun w y => ?_
      cases w with
      | ptr q =>
        show set s.ptr p x q = _ ↔ y ≠ o ∧ s.ptr q = _
        by_cases e : q = p
        · subst e
          rw [C82.set_same, hp]
          exact ⟨fun e => absurd e (hx _), fun ⟨hne, e⟩ => by injection e with e; injection e with e; exact absurd (Option.some.inj e).symm hne⟩
        · rw [C82.set_ne _ _ e]
          exact ⟨fun hq => ⟨fun e' => by subst e'; exact e (Owner.ptr.inj (h.unique (.ptr q) (.ptr p) y hq hw)), hq⟩, (·.2)⟩
      | unique u =>
        exact ⟨fun hq => ⟨fun e' => by subst e'; exact absurd (h.unique (.unique u) (.ptr p) y hq hw) nofun, hq⟩, (·.2)⟩
      | client =>
        exact ⟨fun hq => ⟨fun e' => by subst e'; exact absurd (h.unique .client (.ptr p) y hq hw) nofun, hq⟩, (·.2)⟩

theorem C82.del {s : St} (h : C82.Inv s) {o : Nat} (hr : o ∈ s.raw) :
    ∃ s', { s with raw := s.raw.erase o }.del o = some s' ∧ C82.Inv s' := by
  have hl := h.live .client o hr
  refine ⟨_, if_pos hl, ?_⟩
  refine C82.delete h o ⟨.client, hr⟩ rfl rfl rfl (h.raw.erase o) h.flag fun w y => ?_
  cases w with
  | ptr q => exact ⟨fun hq => ⟨fun e' => by subst e'; exact absurd (h.unique (.ptr q) .client y hq hr) nofun, hq⟩, (·.2)⟩
  | unique u => exact ⟨fun hq => ⟨fun e' => by subst e'; exact absurd (h.unique (.unique u) .client y hq hr) nofun, hq⟩, (·.2)⟩
  | client => exact C82.mem_raw h.raw o y

theorem C82.delUnique {s : St} (h : C82.Inv s) {u o : Nat} (hu : s.uq u = some o) :
    ∃ s', { s with uq := set s.uq u none }.del o = some s' ∧ C82.Inv s' := by
  have hl := h.live (.unique u) o hu
  refine ⟨_, if_pos hl, ?_⟩
  refine C82.delete h o ⟨.unique u, hu⟩ rfl rfl rfl h.raw h.flag fun w y => ?_
  cases w with
  | ptr q => exact ⟨fun hq => ⟨fun e' => by subst e'; exact absurd (h.unique (.ptr q) (.unique u) y hq hu) nofun, hq⟩, (·.2)⟩
  | client => exact ⟨fun hq => ⟨fun e' => by subst e'; exact absurd (h.unique .client (.unique u) y hq hu) nofun, hq⟩, (·.2)⟩
  | unique v =>
    show set s.uq u none v = _ ↔ y ≠ o ∧ s.uq v = _
    by_cases e : v = u
    · subst e
      rw [C82.set_same, hu]
      exact ⟨nofun, fun ⟨hne, e⟩ => absurd (Option.some.inj e).symm hne⟩
    · rw [C82.set_ne _ _ e]
      exact ⟨fun hq => ⟨fun e' => by subst e'; exact e (Owner.unique.inj (h.unique (.unique v) (.unique u) y hq hu)), hq⟩, (·.2)⟩

/-- An object goes from a `unique_ptr` to a pointer that owns nothing. -/
theorem C82.take {s : St} (h : C82.Inv s) (p u : Nat) (hp : ∀ o, s.ptr p ≠ some (some o, true)) :
    C82.Inv { s with ptr := set s.ptr p (some (s.uq u, (s.uq u).isSome)), uq := set s.uq u none } := by
  refine C82.trans h rfl rfl rfl h.raw (C82.flag_set h.flag p _ (by cases s.uq u <;> exact nofun)) (.ptr p) (.unique u) fun w y => ?_
  cases w with
  | ptr q =>
    show set s.ptr p (some (s.uq u, (s.uq u).isSome)) q = _ ↔ _
    by_cases e : q = p
    · subst e
      rw [C82.set_same]
      unfold C82.tr
      rw [if_pos rfl]
      show _ ↔ s.uq u = some y
      cases s.uq u with
      | none => exact ⟨nofun, nofun⟩
      | some z => exact ⟨fun e => congrArg Prod.fst (Option.some.inj e), fun e => by rw [e]; rfl⟩
    · rw [C82.set_ne _ _ e]
      unfold C82.tr
      rw [if_neg (fun e' => e (Owner.ptr.inj e')), if_neg nofun]
      exact Iff.rfl
  | unique v =>
    show set s.uq u none v = _ ↔ _
    unfold C82.tr
    rw [if_neg nofun]
    by_cases e : v = u
    · subst e
      rw [C82.set_same, if_pos rfl]
      exact ⟨nofun, fun e => absurd e (hp y)⟩
    · rw [C82.set_ne _ _ e, if_neg (fun e' => e (Owner.unique.inj e'))]
      exact Iff.rfl
  | client => unfold C82.tr; rw [if_neg nofun, if_neg nofun]; exact Iff.rfl

theorem C82.swap {s : St} (h : C82.Inv s) {p q : Nat} (hp : (s.ptr p).isSome) (hq : (s.ptr q).isSome) :
    ∃ s', s.swap p q = some s' ∧ C82.Inv s' := by
  obtain ⟨a, ha⟩ := Option.isSome_iff_exists.1 hp
  obtain ⟨b, hb⟩ := Option.isSome_iff_exists.1 hq
  have hx : ∀ r, set (set s.ptr p (some b)) q (some a) r = if r = q then s.ptr p else if r = p then s.ptr q else s.ptr r := by
    intro r
    show (if r = q then some a else if r = p then some b else s.ptr r) = _
    rw [ha, hb]
  refine ⟨{ s with ptr := set (set s.ptr p (some b)) q (some a) }, by unfold St.swap; rw [ha, hb], ?_⟩
  refine C82.trans h rfl rfl rfl h.raw (fun r => ?_) (.ptr p) (.ptr q) fun w y => ?_
  · show set (set s.ptr p (some b)) q (some a) r ≠ _
    rw [hx]
    split
    · exact h.flag p
    · split
      · exact h.flag q
      · exact h.flag r
  · cases w with
    | ptr r =>
      show set (set s.ptr p (some b)) q (some a) r = _ ↔ _
      rw [hx]
      unfold C82.tr
      by_cases e1 : r = p
      · subst e1
        by_cases e2 : r = q
        · subst e2; simp only [if_true]; exact Iff.rfl
        · rw [if_neg e2, if_pos rfl, if_pos rfl]; exact Iff.rfl
      · rw [if_neg (c := Owner.ptr r = Owner.ptr p) (fun e => e1 (Owner.ptr.inj e))]
        by_cases e2 : r = q
        · subst e2; rw [if_pos rfl, if_pos rfl]; exact Iff.rfl
        · rw [if_neg e2, if_neg e1, if_neg (fun e => e2 (Owner.ptr.inj e))]; exact Iff.rfl
    | unique u => unfold C82.tr; rw [if_neg nofun, if_neg nofun]; exact Iff.rfl
    | client => unfold C82.tr; rw [if_neg nofun, if_neg nofun]; exact Iff.rfl

theorem C82.step {s : St} (h : C82.Inv s) {op : Op} (hp : s.Pre op) : ∃ s', s.step op = some s' ∧ C82.Inv s' := by
  cases op with
  | alloc =>
    refine ⟨_, rfl, ?_⟩
    have hfr : ∀ w, ¬ Owns s w s.next := fun w hw =>
      absurd ((h.ids s.next).1 (List.mem_append_left _ (h.live w _ hw))) (Nat.lt_irrefl _)
    have hf : s.next ∉ s.live ++ s.dead := fun hm => absurd ((h.ids _).1 hm) (Nat.lt_irrefl _)
    refine ⟨List.nodup_cons.2 ⟨hf, h.nodup⟩, fun o => ?_, List.nodup_cons.2 ⟨hfr .client, h.raw⟩, h.flag, fun w o hw => ?_,
      fun w w' o h1 h2 => ?_, fun o ho => ?_⟩
    · show o ∈ s.next :: (s.live ++ s.dead) ↔ o < s.next + 1
      rw [List.mem_cons, h.ids]; omega
    · cases w with
      | client =>
        rcases List.mem_cons.1 hw with rfl | hw
        · exact List.mem_cons_self
        · exact List.mem_cons_of_mem _ (h.live .client o hw)
      | ptr p => exact List.mem_cons_of_mem _ (h.live (.ptr p) o hw)
      | unique u => exact List.mem_cons_of_mem _ (h.live (.unique u) o hw)
    · have key : ∀ w, Owns { s with next := s.next + 1, live := s.next :: s.live, raw := s.next :: s.raw } w o →
          Owns s w o ∨ (w = .client ∧ o = s.next) := by
        intro w hw
        cases w with
        | client => exact (List.mem_cons.1 hw).symm.imp id fun e => ⟨rfl, e⟩
        | ptr p => exact .inl hw
        | unique u => exact .inl hw
      rcases key w h1 with h1 | ⟨rfl, rfl⟩ <;> rcases key w' h2 with h2 | ⟨rfl, e⟩
      · exact h.unique w w' o h1 h2
      · subst e; exact absurd h1 (hfr w)
      · exact absurd h2 (hfr w')
      · rfl
    · rcases List.mem_cons.1 ho with rfl | ho
      · exact ⟨.client, List.mem_cons_self⟩
      · obtain ⟨w, hw⟩ := h.owned o ho
        cases w with
        | client => exact ⟨.client, List.mem_cons_of_mem _ hw⟩
        | ptr p => exact ⟨.ptr p, hw⟩
        | unique u => exact ⟨.unique u, hw⟩
  | free o => exact C82.del h hp
  | unique u x =>
    obtain ⟨hr, hu⟩ := hp
    refine ⟨_, rfl, C82.hand h rfl rfl rfl (h.raw.erase x) h.flag x .client (.unique u) hr fun w y => ?_⟩
    cases w with
    | client => exact (C82.mem_raw h.raw x y).trans ⟨.inr, fun h => h.elim (fun e => nomatch e.2) id⟩
    | ptr q => exact ⟨fun hq => .inr ⟨fun e => by subst e; exact absurd (h.unique (.ptr q) .client y hq hr) nofun, hq⟩, fun h => h.elim (fun e => nomatch e.2) (·.2)⟩
    | unique v =>
      show set s.uq u (some x) v = _ ↔ _
      by_cases e : v = u
      · subst e
        rw [C82.set_same]
        exact ⟨fun e => .inl ⟨(Option.some.inj e).symm, rfl⟩, fun h => h.elim (fun e => congrArg some e.1.symm) fun ⟨_, h⟩ => by
          have h : s.uq v = some y := h
          rw [hu] at h; exact nomatch h⟩
      · rw [C82.set_ne _ _ e]
        exact ⟨fun hq => .inr ⟨fun e => by subst e; exact absurd (h.unique (.unique v) .client y hq hr) nofun, hq⟩,
          fun h => h.elim (fun e' => absurd (Owner.unique.inj e'.2) e) (·.2)⟩
  | uniqueReset u =>
    cases hu : s.uq u with
    | none => exact ⟨s, by simp only [St.step, hu], h⟩
    | some o =>
      obtain ⟨s', h1, h2⟩ := C82.delUnique h hu
      exact ⟨s', by simp only [St.step, hu]; exact h1, h2⟩
  | mkNull p =>
    have hp : s.ptr p = none := hp
    refine ⟨_, rfl, C82.same h rfl rfl rfl h.raw (C82.flag_set h.flag p _ nofun) fun w y => ?_⟩
    cases w with
    | ptr q =>
      show set s.ptr p _ q = _ ↔ s.ptr q = _
      by_cases e : q = p
      · subst e; rw [C82.set_same, hp]; exact ⟨nofun, nofun⟩
      · rw [C82.set_ne _ _ e]
    | unique u => exact Iff.rfl
    | client => exact Iff.rfl
  | mk p o owns =>
    obtain ⟨hp, hr⟩ := hp
    have same : ∀ x, (∀ o, x ≠ (o, true)) → C82.Inv { s with ptr := set s.ptr p (some x) } := by
      intro x hx
      refine C82.same h rfl rfl rfl h.raw (C82.flag_set h.flag p _ fun e => hx _ (Option.some.inj e)) fun w y => ?_
      cases w with
      | ptr q =>
        show set s.ptr p _ q = _ ↔ s.ptr q = _
        by_cases e : q = p
        · subst e; rw [C82.set_same, hp]; exact ⟨fun e => absurd (Option.some.inj e) (hx _), nofun⟩
        · rw [C82.set_ne _ _ e]
      | unique u => exact Iff.rfl
      | client => exact Iff.rfl
    cases owns with
    | false => exact ⟨_, rfl, by cases o <;> exact same _ nofun⟩
    | true =>
      cases o with
      | none => exact ⟨_, rfl, same _ nofun⟩
      | some x =>
        have hr : x ∈ s.raw := hr rfl x rfl
        refine ⟨_, rfl, C82.hand h rfl rfl rfl (h.raw.erase x) (C82.flag_set h.flag p _ nofun) x .client (.ptr p) hr fun w y => ?_⟩
        cases w with
        | client => exact (C82.mem_raw h.raw x y).trans ⟨.inr, fun h => h.elim (fun e => nomatch e.2) id⟩
        | unique q => exact ⟨fun hq => .inr ⟨fun e => by subst e; exact absurd (h.unique (.unique q) .client y hq hr) nofun, hq⟩, fun h => h.elim (fun e => nomatch e.2) (·.2)⟩
        | ptr v =>
          show set s.ptr p (some (some x, true)) v = _ ↔ _
          by_cases e : v = p
          · subst e
            rw [C82.set_same]
            exact ⟨fun e => .inl ⟨by injection e with e; injection e with e; exact (Option.some.inj e).symm, rfl⟩,
              fun h => h.elim (fun e => by rw [e.1]) fun ⟨_, h⟩ => by
                have h : s.ptr v = some (some y, true) := h
                rw [hp] at h; exact nomatch h⟩
          · rw [C82.set_ne _ _ e]
            exact ⟨fun hq => .inr ⟨fun e => by subst e; exact absurd (h.unique (.ptr v) .client y hq hr) nofun, hq⟩,
              fun h => h.elim (fun e' => absurd (Owner.ptr.inj e'.2) e) (·.2)⟩
  | mkUnique p u =>
    have hp : s.ptr p = none := hp
    refine ⟨_, rfl, ?_⟩
    exact C82.take h p u (fun o => by rw [hp]; exact nofun)
  | mkMove p q =>
    obtain ⟨hp, hq⟩ := hp
    obtain ⟨d, hd⟩ := Option.isSome_iff_exists.1 hq
    have hne : q ≠ p := fun e => by subst e; rw [hp] at hd; exact nomatch hd
    have hx : ∀ r, set (set s.ptr q (some (none, false))) p (some d) r = if r = p then s.ptr q else if r = q then some (none, false) else s.ptr r := by
      intro r
      show (if r = p then some d else if r = q then _ else s.ptr r) = _
      rw [hd]
    refine ⟨{ s with ptr := set (set s.ptr q (some (none, false))) p (some d) }, by simp only [St.step, hd], ?_⟩
    refine C82.trans h rfl rfl rfl h.raw (fun r => ?_) (.ptr p) (.ptr q) fun w y => ?_
    · show set (set s.ptr q _) p _ r ≠ _
      rw [hx]
      split
      · exact h.flag q
      · split
        · exact nofun
        · exact h.flag r
    · cases w with
      | ptr r =>
        show set (set s.ptr q _) p _ r = _ ↔ _
        rw [hx]
        unfold C82.tr
        by_cases e1 : r = p
        · subst e1; rw [if_pos rfl, if_pos rfl]; exact Iff.rfl
        · rw [if_neg e1, if_neg (fun e => e1 (Owner.ptr.inj e))]
          by_cases e2 : r = q
          · subst e2
            rw [if_pos rfl, if_pos rfl]
            show _ ↔ s.ptr p = _
            rw [hp]; exact ⟨nofun, nofun⟩
          · rw [if_neg e2, if_neg (fun e => e2 (Owner.ptr.inj e))]; exact Iff.rfl
      | unique u => unfold C82.tr; rw [if_neg nofun, if_neg nofun]; exact Iff.rfl
      | client => unfold C82.tr; rw [if_neg nofun, if_neg nofun]; exact Iff.rfl
  | swap p q => exact C82.swap h hp.1 hp.2
  | assign p q => exact C82.swap h hp.1 hp.2
  | assignUnique p u =>
    obtain ⟨d, hd⟩ := Option.isSome_iff_exists.1 hp
    obtain ⟨s', h1, h2, h3, h4⟩ := C82.dropped h hd (some (none, false)) nofun
    refine ⟨_, by simp only [St.step, hd, h1, Option.map_some]; rfl, ?_⟩
    have := C82.take h4 p u (fun o => by show set _ p _ p ≠ _; rw [C82.set_same]; exact nofun)
    have e : set (set s.ptr p (some (none, false))) p (some (s'.uq u, (s'.uq u).isSome)) = set s'.ptr p (some (s'.uq u, (s'.uq u).isSome)) := by
      rw [h2]; funext r; unfold set; by_cases e : r = p <;> simp [e]
    simpa [e] using this
  | destroy p =>
    obtain ⟨d, hd⟩ := Option.isSome_iff_exists.1 hp
    obtain ⟨s', h1, h2, _, h4⟩ := C82.dropped h hd none nofun
    refine ⟨_, by simp only [St.step, hd, h1, Option.map_some]; rfl, ?_⟩
    rw [← h2] at h4
    exact h4
  | release p =>
    obtain ⟨⟨o, b⟩, hd⟩ := Option.isSome_iff_exists.1 hp
    have same : b = false → C82.Inv { s with ptr := set s.ptr p (some (o, false)) } := by
      rintro rfl
      refine C82.same h rfl rfl rfl h.raw (C82.flag_set h.flag p _ nofun) fun w y => ?_
      cases w with
      | ptr q =>
        show set s.ptr p _ q = _ ↔ s.ptr q = _
        by_cases e : q = p
        · subst e; rw [C82.set_same, hd]
        · rw [C82.set_ne _ _ e]
      | unique u => exact Iff.rfl
      | client => exact Iff.rfl
    cases b with
    | false => exact ⟨_, by cases o <;> simp only [St.step, hd], same rfl⟩
    | true =>
      cases o with
      | none => exact absurd hd (h.flag p)
      | some x =>
        have hw : Owns s (.ptr p) x := hd
        refine ⟨{ s with ptr := set s.ptr p (some (some x, false)), raw := x :: s.raw }, by simp only [St.step, hd], C82.hand h rfl rfl rfl
          (List.nodup_cons.2 ⟨fun hr => absurd (h.unique .client (.ptr p) x hr hw) nofun, h.raw⟩)
          (C82.flag_set h.flag p _ nofun) x (.ptr p) .client hw fun w y => ?_⟩
        cases w with
        | client =>
          show y ∈ x :: s.raw ↔ _
          rw [List.mem_cons]
          constructor
          · rintro (rfl | hy)
            · exact .inl ⟨rfl, rfl⟩
            · exact .inr ⟨fun e => by subst e; exact absurd (h.unique .client (.ptr p) y hy hw) nofun, hy⟩
          · rintro (⟨rfl, _⟩ | ⟨_, hy⟩)
            · exact .inl rfl
            · exact .inr hy
        | unique q => exact ⟨fun hq => .inr ⟨fun e => by subst e; exact absurd (h.unique (.unique q) (.ptr p) y hq hw) nofun, hq⟩, fun h => h.elim (fun e => nomatch e.2) (·.2)⟩
        | ptr v =>
          show set s.ptr p (some (some x, false)) v = _ ↔ _
          by_cases e : v = p
          · subst e
            rw [C82.set_same]
            exact ⟨fun e => by injection e with e; injection e with _ e; exact absurd e nofun, fun h => h.elim (fun e => nomatch e.2) fun ⟨hne, h⟩ => by
                have h : s.ptr v = some (some y, true) := h
                rw [hd] at h
                injection h with h
                injection h with h
                exact absurd (Option.some.inj h).symm hne⟩
          · rw [C82.set_ne _ _ e]
            exact ⟨fun hq => .inr ⟨fun e' => by subst e'; exact e (Owner.ptr.inj (h.unique (.ptr v) (.ptr p) y hq hw)), hq⟩,
              fun h => h.elim (fun e' => nomatch e'.2) (·.2)⟩
  | reset p =>
    obtain ⟨d, hd⟩ := Option.isSome_iff_exists.1 hp
    obtain ⟨s', h1, h2, _, h4⟩ := C82.dropped h hd (some (none, false)) nofun
    refine ⟨_, by simp only [St.step, hd, h1, Option.map_some]; rfl, ?_⟩
    rw [← h2] at h4
    exact h4

theorem C82.run {r : Option St} (h : Run r) : ∃ s, r = some s ∧ C82.Inv s := by
  induction h with
  | init =>
    refine ⟨_, rfl, ⟨List.nodup_nil, fun o => ⟨nofun, fun h => absurd h (Nat.not_lt_zero o)⟩, List.nodup_nil, fun _ => nofun, fun w o h => ?_,
      fun w _ o h _ => ?_, nofun⟩⟩
    · cases w <;> exact nomatch h
    · cases w <;> exact nomatch h
  | step _ hp ih =>
    obtain ⟨s, e, hi⟩ := ih
    obtain rfl := Option.some.inj e
    exact C82.step hi hp

/-- **C82** (safety): no program that obeys the rules deletes an object twice, deletes one it does not have, or fails the assertion
in `owns`. -/
theorem C82_safe (r : Option St) (h : Run r) : r ≠ none := by
  obtain ⟨s, rfl, _⟩ := C82.run h
  exact nofun

/-- **C82** (ownership): every object ever allocated either has been deleted, exactly once, and has no owner any more, or exists
and has exactly one owner. -/
theorem C82_owner (s : St) (h : Run (some s)) (o : Nat) (ho : o < s.next) :
    (s.dead.count o = 1 ∧ o ∉ s.live ∧ ∀ w, ¬ Owns s w o) ∨
    (s.dead.count o = 0 ∧ o ∈ s.live ∧ ∃ w, Owns s w o ∧ ∀ w', Owns s w' o → w' = w) := by
  obtain ⟨s', e, hi⟩ := C82.run h
  obtain rfl := Option.some.inj e
  have hm := (hi.ids o).2 ho
  obtain ⟨h1, h2, h3⟩ := List.nodup_append.1 hi.nodup
  rcases List.mem_append.1 hm with hl | hd
  · have hnd : o ∉ s.dead := fun hd => h3 o hl o hd rfl
    obtain ⟨w, hw⟩ := hi.owned o hl
    exact .inr ⟨List.count_eq_zero.2 hnd, hl, w, hw, fun w' hw' => hi.unique w' w o hw' hw⟩
  · have hnl : o ∉ s.live := fun hl => h3 o hl o hd rfl
    exact .inl ⟨h2.count.trans (if_pos hd), hnl, fun w hw => hnl (hi.live w o hw)⟩

/-- **C82** (no leaks): once all pointers are gone and the client has deleted what it took over, all objects have been deleted. -/
theorem C82_leak (s : St) (h : Run (some s)) (hp : ∀ p, s.ptr p = none) (hu : ∀ u, s.uq u = none) (hr : s.raw = []) :
    s.live = [] ∧ ∀ o, o ∈ s.dead ↔ o < s.next := by
  obtain ⟨s', e, hi⟩ := C82.run h
  obtain rfl := Option.some.inj e
  have hl : s.live = [] := by
    refine List.eq_nil_iff_forall_not_mem.2 fun o ho => ?_
    obtain ⟨w, hw⟩ := hi.owned o ho
    cases w with
    | ptr p => have hw : s.ptr p = _ := hw; rw [hp] at hw; exact nomatch hw
    | unique u => have hw : s.uq u = _ := hw; rw [hu] at hw; exact nomatch hw
    | client => have hw : o ∈ s.raw := hw; rw [hr] at hw; exact nomatch hw
  refine ⟨hl, fun o => ?_⟩
  rw [← hi.ids, hl]; rfl

/-- Where a pointer leads, `get()`; `none`: the pointer is not in scope. -/
def C82.get (s : St) (r : Nat) : Option (Option Nat) := (s.ptr r).map Prod.fst

/-- Specification: where pointer `r` leads after an operation. -/
def C82.after (s : St) (op : Op) (r : Nat) : Option (Option Nat) :=
  match op with
  | .mkNull p => if r = p then some none else C82.get s r
  | .mk p o _ => if r = p then some o else C82.get s r
  | .mkUnique p u | .assignUnique p u => if r = p then some (s.uq u) else C82.get s r
  | .mkMove p q => if r = p then C82.get s q else if r = q then some none else C82.get s r
  | .swap p q | .assign p q => if r = p then C82.get s q else if r = q then C82.get s p else C82.get s r
  | .destroy p => if r = p then none else C82.get s r
  | .reset p => if r = p then some none else C82.get s r
  | .release _ | .alloc | .free _ | .unique _ _ | .uniqueReset _ => C82.get s r

theorem C82.drop_same {s t : St} {d : Data} (h : s.drop d = some t) : t.ptr = s.ptr ∧ t.uq = s.uq := by
  have del : ∀ o, s.del o = some t → t.ptr = s.ptr ∧ t.uq = s.uq := by
    intro o h
    unfold St.del at h
    split at h
    · obtain rfl := Option.some.inj h; exact ⟨rfl, rfl⟩
    · exact nomatch h
  match d, h with
  | (some o, true), h => exact del o h
  | (none, true), h => exact nomatch h
  | (none, false), h => obtain rfl := Option.some.inj h; exact ⟨rfl, rfl⟩
  | (some _, false), h => obtain rfl := Option.some.inj h; exact ⟨rfl, rfl⟩

theorem C82.get_set (f : Nat → Option Data) (p : Nat) (x : Option Data) (r : Nat) :
    (set f p x r).map Prod.fst = if r = p then x.map Prod.fst else (f r).map Prod.fst := by
  unfold set; split <;> rfl

/-- **C82** (where pointers lead): an operation changes exactly the pointers it is meant to change; moving and exchanging keep where
the pointers lead, whether they own or not, and releasing keeps it too. -/
theorem C82_get (s t : St) (op : Op) (hp : s.Pre op) (h : s.step op = some t) (r : Nat) : C82.get t r = C82.after s op r := by
  have drop : ∀ (p : Nat) (x : St → Option Data), (match s.ptr p with
      | some d => (s.drop d).map fun s => { s with ptr := set s.ptr p (x s) }
      | none => none) = some t → ∃ s', t.ptr = set s.ptr p (x s') ∧ s'.uq = s.uq := by
    intro p x h
    cases hd : s.ptr p with
    | none => rw [hd] at h; exact nomatch h
    | some d =>
      rw [hd] at h
      cases hs : s.drop d with
      | none => simp only [hs] at h; exact nomatch h
      | some s' =>
        simp only [hs, Option.map_some] at h
        obtain rfl := Option.some.inj h
        have := C82.drop_same hs
        exact ⟨s', by rw [← this.1], this.2⟩
  have swap : ∀ p q, s.swap p q = some t →
      C82.get t r = if r = p then C82.get s q else if r = q then C82.get s p else C82.get s r := by
    intro p q h
    unfold St.swap at h
    cases ha : s.ptr p with
    | none => rw [ha] at h; exact nomatch h
    | some a =>
      cases hb : s.ptr q with
      | none => rw [ha, hb] at h; exact nomatch h
      | some b =>
        rw [ha, hb] at h
        obtain rfl := Option.some.inj h
        unfold C82.get
        show Option.map Prod.fst (set _ _ _ r) = _
        rw [C82.get_set, C82.get_set, ha, hb]
        by_cases e1 : r = p
        · by_cases e2 : r = q
          · rw [← e1, e2, hb] at ha
            simp [e1, e2 ▸ e1, Option.some.inj ha]
          · simp [e1, e1 ▸ e2]
        · simp [e1]
  cases op with
  | alloc => obtain rfl := Option.some.inj h; rfl
  | free o =>
    unfold St.step St.del at h
    simp only at h
    split at h
    · obtain rfl := Option.some.inj h; rfl
    · exact nomatch h
  | unique u o => obtain rfl := Option.some.inj h; rfl
  | uniqueReset u =>
    unfold St.step St.del at h
    simp only at h
    split at h
    · obtain rfl := Option.some.inj h; rfl
    · split at h
      · obtain rfl := Option.some.inj h; rfl
      · exact nomatch h
  | mkNull p => obtain rfl := Option.some.inj h; exact C82.get_set _ _ _ _
  | mk p o owns => obtain rfl := Option.some.inj h; exact C82.get_set _ _ _ _
  | mkUnique p u => obtain rfl := Option.some.inj h; exact C82.get_set _ _ _ _
  | mkMove p q =>
    obtain ⟨hp, hq⟩ := hp
    obtain ⟨d, hd⟩ := Option.isSome_iff_exists.1 hq
    have hne : q ≠ p := fun e => by subst e; rw [hp] at hd; exact nomatch hd
    simp only [St.step, hd] at h
    obtain rfl := Option.some.inj h
    show Option.map Prod.fst (set _ _ _ r) = if r = p then (s.ptr q).map _ else if r = q then _ else (s.ptr r).map _
    rw [C82.get_set, C82.get_set, hd]
    rfl
  | swap p q => exact swap p q h
  | assign p q => exact swap p q h
  | assignUnique p u =>
    have h : (match s.ptr p with
      | some d => (s.drop d).map fun s => { s with ptr := set s.ptr p (some (s.uq u, (s.uq u).isSome)), uq := set s.uq u none }
      | none => none) = some t := h
    cases hd : s.ptr p with
    | none => rw [hd] at h; exact nomatch h
    | some d =>
      rw [hd] at h
      cases hs : s.drop d with
      | none => simp only [hs] at h; exact nomatch h
      | some s' =>
        simp only [hs, Option.map_some] at h
        obtain rfl := Option.some.inj h
        have := C82.drop_same hs
        show Option.map Prod.fst (set _ _ _ r) = if r = p then some (s.uq u) else (s.ptr r).map _
        rw [C82.get_set, this.1, this.2]
        rfl
  | destroy p =>
    obtain ⟨s', h1, _⟩ := drop p (fun _ => none) h
    unfold C82.get
    rw [h1, C82.get_set]; rfl
  | release p =>
    obtain ⟨⟨o, b⟩, hd⟩ := Option.isSome_iff_exists.1 hp
    have : ∀ (x : Option Data), x.map Prod.fst = some o → (set s.ptr p x r).map Prod.fst = (s.ptr r).map Prod.fst := by
      intro x hx
      rw [C82.get_set]
      split
      · rename_i e; rw [e, hd, hx]; rfl
      · rfl
    cases o <;> cases b <;> (simp only [St.step, hd] at h; obtain rfl := Option.some.inj h; exact this _ rfl)
  | reset p =>
    obtain ⟨s', h1, _⟩ := drop p (fun _ => some (none, false)) h
    unfold C82.get
    rw [h1, C82.get_set]; rfl

/-- States as data, to compare them. -/
def C82.view (s : St) (n : Nat) : List Nat × List Nat × List (Option Data) × List (Option Nat) × List Nat :=
  (s.live, s.dead, (List.range n).map s.ptr, (List.range n).map s.uq, s.raw)

/-- Running a list of operations. -/
def C82.exec (ops : List Op) : Option St := ops.foldlM St.step St.init

/-- Objects 0, 1 and 2: 0 goes through a `unique_ptr` to pointer 0, is moved to pointer 1 and released; 1 is owned by pointer 2 and
replaced by 2; pointer 3 refers to 0 without owning it. -/
def C82.ops : List Op := [.alloc, .unique 0 0, .mkUnique 0 0, .mkMove 1 0, .mk 3 (some 0) false, .alloc, .mk 2 (some 1) true, .alloc, .unique 1 2,
  .assignUnique 2 1, .release 1, .swap 1 2, .destroy 1, .destroy 3]

/-- The program obeys the rules. -/
theorem C82.ops_run : Run (C82.exec C82.ops) := by
  have h0 := Run.init
  have h1 := h0.step (op := .alloc) trivial
  have h2 := Run.step (op := .unique 0 0) h1 ⟨by decide, rfl⟩
  have h3 := Run.step (op := .mkUnique 0 0) h2 rfl
  have h4 := Run.step (op := .mkMove 1 0) h3 ⟨rfl, rfl⟩
  have h5 := Run.step (op := .mk 3 (some 0) false) h4 ⟨rfl, nofun⟩
  have h6 := Run.step (op := .alloc) h5 trivial
  have h7 := Run.step (op := .mk 2 (some 1) true) h6 ⟨rfl, fun _ x e => by injection e with e; subst e; decide⟩
  have h8 := Run.step (op := .alloc) h7 trivial
  have h9 := Run.step (op := .unique 1 2) h8 ⟨by decide, rfl⟩
  have h10 := Run.step (op := .assignUnique 2 1) h9 rfl
  have h11 := Run.step (op := .release 1) h10 rfl
  have h12 := Run.step (op := .swap 1 2) h11 ⟨rfl, rfl⟩
  have h13 := Run.step (op := .destroy 1) h12 rfl
  exact Run.step (op := .destroy 3) h13 rfl

example : (C82.exec C82.ops).map (C82.view · 4) =
    some ([0], [2, 1], [some (none, false), none, some (some 0, false), none], [none, none, none, none], [0]) := rfl

example : C82.exec C82.ops ≠ none := C82_safe _ C82.ops_run

/-- Nothing is left at the end. -/
example : ∃ s, Run (some s) ∧ (∀ p, s.ptr p = none) ∧ (∀ u, s.uq u = none) ∧ s.raw = [] ∧ s.next = 2 ∧ s.dead = [1, 0] := by
  have h1 := Run.init.step (op := .alloc) trivial
  have h2 := Run.step (op := .mk 0 (some 0) true) h1 ⟨rfl, fun _ x e => by injection e with e; subst e; decide⟩
  have h3 := Run.step (op := .alloc) h2 trivial
  have h4 := Run.step (op := .unique 0 1) h3 ⟨by decide, rfl⟩
  have h5 := Run.step (op := .assignUnique 0 0) h4 rfl
  have h6 := Run.step (op := .destroy 0) h5 rfl
  refine ⟨_, h6, fun p => ?_, fun u => ?_, rfl, rfl, rfl⟩
  · match p with
    | 0 => rfl
    | _ + 1 => rfl
  · match u with
    | 0 => rfl
    | _ + 1 => rfl

/-- The rules are needed: a second owner of the same object. -/
example : C82.exec [.alloc, .mk 0 (some 0) true, .mk 1 (some 0) true, .destroy 0, .destroy 1] = none := rfl

/-- **C82** is false of move assignment as with `std::unique_ptr`: the object that the target owned is not deleted but goes to the
pointer that was moved from, which is not empty afterwards. -/
theorem C82_assign_false : ∃ s t, Run (some s) ∧ s.Pre (.assign 0 1) ∧ s.step (.assign 0 1) = some t ∧ s.ptr 0 = some (some 0, true) ∧
    t.dead = [] ∧ t.ptr 1 = some (some 0, true) := by
  have h1 := Run.init.step (op := .alloc) trivial
  have h2 := Run.step (op := .mk 0 (some 0) true) h1 ⟨rfl, fun _ x e => by injection e with e; subst e; decide⟩
  have h3 := Run.step (op := .mkNull 1) h2 rfl
  exact ⟨_, _, h3, ⟨rfl, rfl⟩, rfl, rfl, rfl, rfl⟩

/-- **C82**: released pointers are not null, so that emptiness does not tell ownership: the object can be deleted by the client while
the pointer still refers to it. -/
theorem C82_release_false : ∃ s, Run (some s) ∧ s.ptr 0 = some (some 0, false) ∧ s.live = [] ∧ s.dead = [0] := by
  have h1 := Run.init.step (op := .alloc) trivial
  have h2 := Run.step (op := .mk 0 (some 0) true) h1 ⟨rfl, fun _ x e => by injection e with e; subst e; decide⟩
  have h3 := Run.step (op := .release 0) h2 rfl
  have h4 := Run.step (op := .free 0) h3 List.mem_cons_self
  exact ⟨_, h4, rfl, rfl, rfl⟩

end Phasar.MaybeUnique
