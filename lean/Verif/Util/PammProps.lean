import Verif.Util.Pamm

/-!
# C84: the performance measurement

The specification reads measurements off the history of operations, newest first.
-/
namespace Phasar.Pamm

/-- Specification: a history that did not abort leads to a state. -/
inductive Run : List Op → St → Prop
  | nil : Run [] .init
  | cons {h s op s'} : Run h s → s.step op = some s' → Run (op :: h) s'

/-- Specification: when the timer was started, since it was last reset; resetting it forgets its last interval. -/
def startsOf (id : Nat) : List Op → List Nat
  | [] => []
  | .start i t :: h => if i = id then startsOf id h ++ [t] else startsOf id h
  | .resetTimer i :: h => if i = id then (startsOf id h).dropLast else startsOf id h
  | .reset :: _ => []
  | _ :: h => startsOf id h

/-- Specification: when the timer was stopped or paused; it runs if it was started more often. -/
def endsOf (id : Nat) : List Op → List Nat
  | [] => []
  | .stop i t _ :: h => if i = id then endsOf id h ++ [t] else endsOf id h
  | .stopAll t :: h => if (endsOf id h).length < (startsOf id h).length then endsOf id h ++ [t id] else endsOf id h
  | .resetTimer i :: h =>
    if i = id ∧ (startsOf id h).length ≤ (endsOf id h).length then (endsOf id h).dropLast else endsOf id h
  | .reset :: _ => []
  | _ :: h => endsOf id h

/-- Specification: the exact count of a counter. -/
def countOf (id : Nat) : List Op → Option Int
  | [] => none
  | .regCounter i v :: h => if i = id then some v else countOf id h
  | .incCounter i v :: h => if i = id then (countOf id h).map (· + v) else countOf id h
  | .decCounter i v :: h => if i = id then (countOf id h).map (· - v) else countOf id h
  | .reset :: _ => none
  | _ :: h => countOf id h

/-- Specification: the values added to a data point. -/
def addedTo (id d : Nat) : List Op → List Nat
  | [] => []
  | .addHist i e v :: h => if i = id ∧ e = d then v :: addedTo id d h else addedTo id d h
  | .reset :: _ => []
  | _ :: h => addedTo id d h

theorem set_same {α : Type} (f : Nat → α) (i : Nat) (x : α) : set f i x i = x := if_pos rfl

theorem set_other {α : Type} (f : Nat → α) {i j : Nat} (x : α) (h : j ≠ i) : set f i x j = f j := if_neg h

/-- The invariant of one timer. -/
structure C84.Inv (h : List Op) (s : St) (id : Nat) : Prop where
  starts : startsOf id h = ((s.rep id).getD []).map (·.1) ++ (s.stopped id).toList.map (·.1) ++ (s.running id).toList
  ends : endsOf id h = ((s.rep id).getD []).map (·.2) ++ (s.stopped id).toList.map (·.2)
  disj : s.running id = none ∨ s.stopped id = none

theorem C84.Inv.lt {h s id} (I : C84.Inv h s id) :
    (endsOf id h).length < (startsOf id h).length ↔ (s.running id).isSome := by
  rw [I.starts, I.ends]
  cases s.running id <;> simp

theorem C84.frame {h s s' id op} (I : C84.Inv h s id) (h1 : s'.running id = s.running id) (h2 : s'.stopped id = s.stopped id)
    (h3 : s'.rep id = s.rep id) (h4 : startsOf id (op :: h) = startsOf id h) (h5 : endsOf id (op :: h) = endsOf id h) :
    C84.Inv (op :: h) s' id :=
  ⟨by rw [h4, h1, h2, h3]; exact I.starts, by rw [h5, h2, h3]; exact I.ends, by rw [h1, h2]; exact I.disj⟩

theorem C84.inv {h s} (hr : Run h s) (id : Nat) : C84.Inv h s id := by
  induction hr with
  | nil => exact ⟨rfl, rfl, .inl rfl⟩
  | @cons h s op s' _ hs I =>
    cases op with
    | start i t =>
      simp only [St.step, St.start] at hs
      split at hs
      · cases hs
      · rename_i hst
        split at hs
        · cases hs
        · rename_i hrn
          cases hs
          by_cases e : id = i
          · subst e
            have hst : s.stopped id = none := by simpa using hst
            have hrn : s.running id = none := by simpa using hrn
            refine ⟨?_, I.ends, .inr hst⟩
            have := I.starts
            rw [hst, hrn] at this
            simp only [startsOf, if_true, this, set_same, hst]
            simp
          · exact C84.frame I (set_other _ _ e) rfl rfl (if_neg (Ne.symm e)) rfl
    | stop i t pause =>
      simp only [St.step, St.stop] at hs
      split at hs
      · cases hs
      · rename_i b hb
        by_cases e : id = i
        · subst e
          have hst : s.stopped id = none := by rcases I.disj with h | h; · rw [hb] at h; cases h
                                               · exact h
          have h1 := I.starts
          have h2 := I.ends
          rw [hst, hb] at h1
          rw [hst] at h2
          split at hs <;> cases hs
          · refine ⟨?_, ?_, .inl (set_same ..)⟩
            · simp only [startsOf, h1, set_same, hst]
              simp
            · simp only [endsOf, if_true, h2, set_same, hst]
              simp
          · refine ⟨?_, ?_, .inl (set_same ..)⟩
            · simp only [startsOf, h1, set_same]
              simp
            · simp only [endsOf, if_true, h2, set_same]
              simp
        · split at hs <;> cases hs
          · exact C84.frame I (set_other _ _ e) rfl (set_other _ _ e) rfl (if_neg (Ne.symm e))
          · exact C84.frame I (set_other _ _ e) (set_other _ _ e) rfl rfl (if_neg (Ne.symm e))
    | resetTimer i =>
      simp only [St.step, St.resetTimer] at hs
      split at hs
      · rename_i hx
        cases hs
        by_cases e : id = i
        · subst e
          have h1 := I.starts
          have h2 := I.ends
          have hlt := I.lt
          refine ⟨?_, ?_, .inl (set_same ..)⟩
          · simp only [startsOf, if_true, h1, set_same]
            rcases I.disj with h | h
            · rw [h] at hx ⊢
              cases hs : s.stopped id with
              | none => rw [hs] at hx; cases hx
              | some x => simp
            · rw [h] at hx ⊢
              cases hs : s.running id with
              | none => rw [hs] at hx; cases hx
              | some x => simp
          · simp only [endsOf, true_and, set_same]
            rcases I.disj with h | h
            · rw [h] at hlt hx
              rw [if_pos (by simpa using hlt), h2]
              cases hs : s.stopped id with
              | none => rw [hs] at hx; cases hx
              | some x => simp
            · rw [h] at hx h2
              cases hs : s.running id with
              | none => rw [hs] at hx; cases hx
              | some x =>
                rw [hs] at hlt
                rw [if_neg (by have := hlt.2 rfl; omega), h2]
        · refine C84.frame I (set_other _ _ e) (set_other _ _ e) rfl (if_neg (Ne.symm e)) (if_neg fun h => e h.1.symm)
      · cases hs
    | stopAll t =>
      cases hs
      have h1 := I.starts
      have h2 := I.ends
      have hlt := I.lt
      cases hb : s.running id with
      | none =>
        rw [hb] at h1 hlt
        refine ⟨?_, ?_, .inl rfl⟩
        · simp only [startsOf, St.stopAll, hb, h1]
        · simp only [endsOf, St.stopAll, hb]
          rw [if_neg (by simpa using hlt), h2]
      | some b =>
        have hst : s.stopped id = none := by rcases I.disj with h | h; · rw [hb] at h; cases h
                                             · exact h
        rw [hb] at h1 hlt
        rw [hst] at h1 h2
        refine ⟨?_, ?_, .inl rfl⟩
        · simp only [startsOf, St.stopAll, hb, h1]
          simp
        · simp only [endsOf, St.stopAll, hb]
          rw [if_pos (hlt.2 rfl), h2]
          simp
    | reset => cases hs; exact ⟨rfl, rfl, .inl rfl⟩
    | regCounter i v | regHist i =>
      simp only [St.step] at hs
      split at hs
      · cases hs
      · cases hs; exact C84.frame I rfl rfl rfl rfl rfl
    | incCounter i v | decCounter i v | addHist i d v =>
      simp only [St.step] at hs
      split at hs
      · cases hs
      · cases hs; exact C84.frame I rfl rfl rfl rfl rfl

/-- Timers: after any history that did not abort, the paused, the stopped and the running intervals together begin exactly when the timer
was started, in order, and end exactly when it was stopped; a timer is never running and stopped at once. -/
theorem C84_timer {h s} (hr : Run h s) (id : Nat) :
    startsOf id h = ((s.rep id).getD []).map (·.1) ++ (s.stopped id).toList.map (·.1) ++ (s.running id).toList ∧
    endsOf id h = ((s.rep id).getD []).map (·.2) ++ (s.stopped id).toList.map (·.2) ∧
    (s.running id = none ∨ s.stopped id = none) :=
  ⟨(C84.inv hr id).starts, (C84.inv hr id).ends, (C84.inv hr id).disj⟩

/-- A timer that is started, paused, started again and stopped; another one runs. -/
example : ∃ s, Run [.stop 0 30000000 false, .start 0 20000000, .stop 0 15000000 true, .start 1 12000000, .start 0 10000000] s ∧
    s.rep 0 = some [(10000000, 15000000)] ∧ s.stopped 0 = some (20000000, 30000000) ∧ s.running 1 = some 12000000 :=
  ⟨_, .cons (.cons (.cons (.cons (.cons .nil rfl) rfl) rfl) rfl) rfl, rfl, rfl, rfl⟩

/-- `elapsedTime` is the length of the last interval, up to now if the timer is running; it aborts if there is no interval but paused
ones. -/
theorem C84_elapsed {h s} (hr : Run h s) (id t : Nat) :
    ((endsOf id h).length < (startsOf id h).length →
      ∃ b, (startsOf id h).getLast? = some b ∧ s.elapsed id t = some ((t - b) / 1000000)) ∧
    (∀ b e, s.stopped id = some (b, e) → (startsOf id h).getLast? = some b ∧ (endsOf id h).getLast? = some e ∧
      s.elapsed id t = some ((e - b) / 1000000)) := by
  have I := C84.inv hr id
  constructor
  · intro hlt
    rw [I.lt] at hlt
    obtain ⟨b, hb⟩ := Option.isSome_iff_exists.1 hlt
    refine ⟨b, ?_, by simp [St.elapsed, hb, ms]⟩
    rw [I.starts, hb]
    simp
  · intro b e he
    have hrn : s.running id = none := by rcases I.disj with h | h; · exact h
                                         · rw [he] at h; cases h
    refine ⟨?_, ?_, by simp [St.elapsed, hrn, he, ms]⟩
    · rw [I.starts, he, hrn]; simp
    · rw [I.ends, he]; simp

/-- The durations an entry of the export tells. -/
def C84.durations : Option JVal → List Nat
  | none => []
  | some (.single d) => [d]
  | some (.many l) => l

/-- The exported timers, partial: when all timers have been stopped, the export of a timer that was not both paused and stopped is the list
of the lengths of all its intervals, in order.  Missing: timers that were both, `C84_export_false`. -/
theorem C84_export_partial {h s} (t : Nat → Nat) (hr : Run (.stopAll t :: h) s) (id : Nat)
    (hx : s.rep id = none ∨ s.stopped id = none) :
    C84.durations (s.exportTimers id) =
      List.zipWith (fun b e => (e - b) / 1000000) (startsOf id (.stopAll t :: h)) (endsOf id (.stopAll t :: h)) := by
  have I := C84.inv hr id
  have hrn : s.running id = none := by cases hr with | cons _ hs => cases hs; rfl
  have hz : ∀ l : List (Nat × Nat), List.zipWith (fun b e => (e - b) / 1000000) (l.map (·.1)) (l.map (·.2)) = l.map ms := by
    intro l
    induction l with
    | nil => rfl
    | cons x l ih => simp [ih, ms]
  rw [I.starts, I.ends, hrn]
  rcases hx with hx | hx
  · rw [St.exportTimers, St.elapsedRep, hx]
    cases s.stopped id <;> simp [C84.durations, ms]
  · rw [St.exportTimers, St.elapsedRep, hx]
    cases hp : s.rep id with
    | none => simp [C84.durations]
    | some l => simpa [C84.durations] using (hz l).symm

/-- A timer that is paused twice. -/
example : ∃ s, Run [.stopAll fun _ => 99, .stop 0 9000000 true, .start 0 8000000, .stop 0 7000000 true, .start 0 5000000] s ∧
    s.stopped 0 = none ∧ s.exportTimers 0 = some (.many [2, 1]) :=
  ⟨_, .cons (.cons (.cons (.cons (.cons .nil rfl) rfl) rfl) rfl) rfl, rfl, rfl⟩

/-- The export of a repeating timer that still runs when everything is stopped for the export (or was stopped at the end) lacks its last
interval, as the entry of the single timer is overwritten; starting this timer again aborts, and resetting a timer that is only paused
aborts, too. -/
theorem C84_export_false :
    (∃ s, Run [.stopAll fun _ => 9000000, .start 0 4000000, .stop 0 2000000 true, .start 0 1000000] s ∧
      s.exportTimers 0 = some (.many [1]) ∧ s.elapsed 0 0 = some 5 ∧ s.step (.start 0 10000000) = none) ∧
    ∃ s, Run [.stop 0 2000000 true, .start 0 1000000] s ∧ s.step (.resetTimer 0) = none ∧ s.elapsed 0 0 = none :=
  ⟨⟨_, .cons (.cons (.cons (.cons .nil rfl) rfl) rfl) rfl, rfl, rfl, rfl⟩, ⟨_, .cons (.cons .nil rfl) rfl, rfl, rfl⟩⟩

/-- Stopping a timer twice is undefined behaviour or a failed assertion, as is starting a stopped or a running one; for all states. -/
theorem C84_protocol {h s} (hr : Run h s) (id t : Nat) (pause : Bool) :
    (s.step (.stop id t pause) = none ↔ (startsOf id h).length ≤ (endsOf id h).length) ∧
    ((endsOf id h).length < (startsOf id h).length → s.step (.start id t) = none) ∧
    (∀ s', s.step (.stop id t false) = some s' → ∀ u, s'.step (.start id u) = none) ∧
    ∀ s', s.step (.stop id t true) = some s' → ∀ u, (s'.step (.start id u)).isSome := by
  have I := C84.inv hr id
  refine ⟨?_, ?_, ?_, ?_⟩
  · have hlt := I.lt
    cases hb : s.running id with
    | none => rw [hb] at hlt; simpa [St.step, St.stop, hb] using hlt
    | some b =>
      rw [hb] at hlt
      have := hlt.2 rfl
      constructor
      · intro hs; cases pause <;> simp [St.step, St.stop, hb] at hs
      · intro; omega
  · intro h
    rw [I.lt] at h
    by_cases hs : (s.stopped id).isSome <;> simp [St.step, St.start, h, hs]
  · intro s' hs u
    simp only [St.step, St.stop] at hs
    split at hs
    · cases hs
    · cases hs
      simp [St.step, St.start, set_same]
  · intro s' hs u
    simp only [St.step, St.stop] at hs
    split at hs
    · cases hs
    · rename_i b hb
      have hst : s.stopped id = none := by rcases I.disj with h | h; · rw [hb] at h; cases h
                                           · exact h
      cases hs
      simp [St.step, St.start, set_same, hst]

/-- Counters: after any history that did not abort, a counter is its exact count modulo 2³²; so it is exact if the count is in range,
whatever it was in between. -/
theorem C84_counter {h s} (hr : Run h s) (id : Nat) :
    s.ctr id = (countOf id h).map (fun z => (z % 2 ^ 32).toNat) ∧
    ∀ z : Nat, z < 2 ^ 32 → countOf id h = some (z : Int) → s.ctr id = some z := by
  have key : s.ctr id = (countOf id h).map (fun z => (z % 2 ^ 32).toNat) := by
    induction hr with
    | nil => rfl
    | @cons h s op s' _ hs ih =>
      cases op with
      | regCounter i v =>
        simp only [St.step] at hs
        split at hs
        · cases hs
        · cases hs
          by_cases e : id = i
          · subst e
            simp only [countOf, if_true, set_same, Option.map_some, U32]
            congr 1
          · simp only [countOf, if_neg (Ne.symm e)]
            rw [← ih]
            exact set_other _ _ e
      | incCounter i v =>
        simp only [St.step] at hs
        split at hs
        · cases hs
        · rename_i x hx
          cases hs
          by_cases e : id = i
          · subst e
            rw [ih] at hx
            obtain ⟨z, hz, rfl⟩ := Option.map_eq_some_iff.1 hx
            simp only [countOf, if_true, hz, set_same, Option.map_some, U32]
            congr 1
            omega
          · simp only [countOf, if_neg (Ne.symm e)]
            rw [← ih]
            exact set_other _ _ e
      | decCounter i v =>
        simp only [St.step] at hs
        split at hs
        · cases hs
        · rename_i x hx
          cases hs
          by_cases e : id = i
          · subst e
            rw [ih] at hx
            obtain ⟨z, hz, rfl⟩ := Option.map_eq_some_iff.1 hx
            simp only [countOf, if_true, hz, set_same, Option.map_some, U32]
            congr 1
            omega
          · simp only [countOf, if_neg (Ne.symm e)]
            rw [← ih]
            exact set_other _ _ e
      | start i t =>
        simp only [St.step, St.start] at hs
        split at hs
        · cases hs
        · split at hs <;> cases hs
          exact ih
      | stop i t q =>
        simp only [St.step, St.stop] at hs
        split at hs
        · cases hs
        · split at hs <;> cases hs <;> exact ih
      | resetTimer i =>
        simp only [St.step, St.resetTimer] at hs
        split at hs <;> cases hs
        exact ih
      | stopAll t => cases hs; exact ih
      | reset => cases hs; rfl
      | regHist i =>
        simp only [St.step] at hs
        split at hs <;> cases hs
        exact ih
      | addHist i d v =>
        simp only [St.step] at hs
        split at hs <;> cases hs
        exact ih
  refine ⟨key, fun z hz hc => ?_⟩
  rw [key, hc, Option.map_some]
  congr 1
  omega

/-- A counter that is less than zero in between, and one that wraps around. -/
example : ∃ s, Run [.incCounter 0 5, .decCounter 0 3, .regCounter 0 1, .decCounter 1 2, .regCounter 1 1] s ∧ s.ctr 0 = some 3 ∧
    s.ctr 1 = some 4294967295 :=
  ⟨_, .cons (.cons (.cons (.cons (.cons .nil rfl) rfl) rfl) rfl) rfl, by decide, by decide⟩

/-- `getSumCount`: the sum of the counters, exact for up to 2³² of them; nothing if one is not registered. -/
theorem C84_sum {h s} (hr : Run h s) (ids : List Nat) :
    ((∃ id ∈ ids, countOf id h = none) → s.sum ids = none) ∧
    ∀ v : Nat → Nat, (∀ id ∈ ids, s.ctr id = some (v id)) → ids.length ≤ 2 ^ 32 → s.sum ids = some (ids.map v).sum := by
  constructor
  · rintro ⟨id, hid, hn⟩
    have hc : s.ctr id = none := by rw [(C84_counter hr id).1, hn]; rfl
    have hnone : ∀ l : List Nat, l.foldl (fun acc id => acc.bind fun a => (s.ctr id).map fun x => (a + x) % U64) none = none := by
      intro l
      induction l with
      | nil => rfl
      | cons x l ih => exact ih
    have key : ∀ (l : List Nat) (a : Option Nat), id ∈ l →
        l.foldl (fun acc id => acc.bind fun a => (s.ctr id).map fun x => (a + x) % U64) a = none := by
      intro l
      induction l with
      | nil => intro a h; cases h
      | cons x l ih =>
        intro a hm
        rw [List.foldl_cons]
        rcases List.mem_cons.1 hm with rfl | hm
        · rw [hc]
          have : (a.bind fun a => (none : Option Nat).map fun x => (a + x) % U64) = none := by cases a <;> rfl
          rw [this]
          exact hnone l
        · exact ih _ hm
    exact key ids _ hid
  · intro v hv hlen
    have hlt : ∀ id ∈ ids, v id < 2 ^ 32 := by
      intro id hid
      have h1 := hv id hid
      rw [(C84_counter hr id).1] at h1
      obtain ⟨z, _, hz⟩ := Option.map_eq_some_iff.1 h1
      omega
    have key : ∀ (l : List Nat) (a : Nat), (∀ id ∈ l, s.ctr id = some (v id)) → (∀ id ∈ l, v id < 2 ^ 32) →
        a + l.length * 2 ^ 32 ≤ 2 ^ 64 → (l ≠ [] ∨ a < 2 ^ 64) →
        l.foldl (fun acc id => acc.bind fun a => (s.ctr id).map fun x => (a + x) % U64) (some a) = some (a + (l.map v).sum) := by
      intro l
      induction l with
      | nil => intro a _ _ _ _; simp
      | cons x l ih =>
        intro a h1 h2 h3 _
        rw [List.foldl_cons]
        have hx := h1 x List.mem_cons_self
        have hxl := h2 x List.mem_cons_self
        rw [List.length_cons] at h3
        have hax : a + v x < 2 ^ 64 := by omega
        have : ((some a).bind fun a => (s.ctr x).map fun x => (a + x) % U64) = some (a + v x) := by
          rw [hx]
          show some ((a + v x) % U64) = _
          rw [U64, Nat.mod_eq_of_lt hax]
        rw [this, ih (a + v x) (fun i hi => h1 i (List.mem_cons_of_mem _ hi)) (fun i hi => h2 i (List.mem_cons_of_mem _ hi))
          (by omega) (.inr hax)]
        simp [Nat.add_assoc]
    have := key ids 0 hv hlt (by omega) (.inr (by decide))
    rw [Nat.zero_add] at this
    exact this

example : ∃ s, Run [.regCounter 1 4294967295, .regCounter 0 4294967295] s ∧ s.sum [0, 1] = some 8589934590 :=
  ⟨_, .cons (.cons .nil rfl) rfl, by decide⟩

/-- Histograms: after any history that did not abort, a data point is the sum of what was added to it, modulo 2⁶⁴; it exists if something
was added. -/
theorem C84_histogram {h s} (hr : Run h s) (id d : Nat) :
    ((s.hist id).bind fun f => f d) = if addedTo id d h = [] then none else some ((addedTo id d h).sum % 2 ^ 64) := by
  induction hr with
  | nil => rfl
  | @cons h s op s' hr hs ih =>
    cases op with
    | regHist i =>
      simp only [St.step] at hs
      split at hs
      · cases hs
      · rename_i hn
        cases hs
        by_cases e : id = i
        · subst e
          have hn : s.hist id = none := by simpa using hn
          rw [hn] at ih
          show ((set s.hist id (some fun _ => none) id).bind fun f => f d) = _
          rw [set_same]
          exact ih
        · show ((set s.hist i (some fun _ => none) id).bind fun f => f d) = _
          rw [set_other _ _ e]
          exact ih
    | addHist i e v =>
      simp only [St.step] at hs
      split at hs
      · cases hs
      · rename_i f hf
        cases hs
        by_cases e' : id = i
        · subst e'
          by_cases ed : d = e
          · subst ed
            simp only [addedTo, and_self, if_true, set_same, Option.bind_some, List.cons_ne_nil, if_false, List.sum_cons]
            rw [hf] at ih
            simp only [Option.bind_some] at ih
            rw [ih]
            split
            · rename_i hsp
              split at hsp
              · rename_i h0; rw [h0]; simp [U64]
              · cases hsp
            · rename_i x hsp
              split at hsp
              · cases hsp
              · cases hsp
                congr 1
                simp only [U64]
                omega
          · simp only [addedTo, Ne.symm ed, and_false, if_false, set_same, Option.bind_some, set_other _ _ ed]
            rw [← ih, hf]
            rfl
        · simp only [addedTo, Ne.symm e', false_and, if_false, set_other _ _ e']
          exact ih
    | start i t =>
      simp only [St.step, St.start] at hs
      split at hs
      · cases hs
      · split at hs <;> cases hs
        exact ih
    | stop i t q =>
      simp only [St.step, St.stop] at hs
      split at hs
      · cases hs
      · split at hs <;> cases hs <;> exact ih
    | resetTimer i =>
      simp only [St.step, St.resetTimer] at hs
      split at hs <;> cases hs
      exact ih
    | stopAll t => cases hs; exact ih
    | reset => cases hs; rfl
    | regCounter i v =>
      simp only [St.step] at hs
      split at hs <;> cases hs
      exact ih
    | incCounter i v | decCounter i v =>
      simp only [St.step] at hs
      split at hs <;> cases hs
      exact ih

example : ∃ s, Run [.addHist 0 7 2, .addHist 0 8 1, .addHist 0 7 3, .regHist 0] s ∧ (s.hist 0).bind (· 7) = some 5 ∧
    (s.hist 0).bind (· 9) = none :=
  ⟨_, .cons (.cons (.cons (.cons .nil rfl) rfl) rfl) rfl, rfl, rfl⟩

end Phasar.Pamm
