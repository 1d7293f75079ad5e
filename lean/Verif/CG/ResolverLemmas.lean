import Verif.CG.Resolver
import Verif.TH.StructProps
import Verif.CG.TypeGraphProps

/-! # Lemmas about the resolution of indirect calls -/

namespace Phasar.Resolver
open Phasar.TypeGraph (Reach)

theorem typeMatch_sound : ∀ {f a : Ty}, typeMatch a f = true → Match a f := by
  intro f
  induction f with
  | int w =>
    intro a h
    unfold typeMatch at h
    by_cases e : a = .int w
    · subst e; exact .refl _
    · rw [if_neg e] at h
      cases a <;> simp_all [typeId]
  | struct t =>
    intro a h
    unfold typeMatch at h
    by_cases e : a = .struct t
    · subst e; exact .refl _
    · rw [if_neg e] at h
      cases a <;> simp_all [typeId]
      exact .struct _ _
  | ptr f ih =>
    intro a h
    unfold typeMatch at h
    by_cases e : a = .ptr f
    · subst e; exact .refl _
    · rw [if_neg e] at h
      cases a with
      | ptr a =>
        simp only [typeId] at h
        by_cases e8 : f = .int 8
        · subst e8; exact .void _
        · rw [if_neg e8] at h; exact .ptr (ih (by simpa using h))
      | opq => exact .opaqueL _
      | _ => simp_all [typeId]
  | opq =>
    intro a h
    unfold typeMatch at h
    by_cases e : a = .opq
    · subst e; exact .refl _
    · rw [if_neg e] at h
      cases a <;> simp_all [typeId]
      exact .opaqueR _
  | other t i =>
    intro a h
    unfold typeMatch at h
    by_cases e : a = .other t i
    · subst e; exact .refl _
    · rw [if_neg e] at h
      cases a <;> simp_all [typeId]

theorem typeMatch_complete {a f : Ty} (h : Match a f) : typeMatch a f = true := by
  induction h with
  | refl t => unfold typeMatch; simp
  | opaqueL t => unfold typeMatch; simp [typeId]
  | opaqueR t => unfold typeMatch; simp [typeId]
  | void t => unfold typeMatch; simp [typeId]
  | @ptr a f _ ih =>
    unfold typeMatch
    by_cases e : a = f
    · simp [e]
    · simp [e, typeId, ih]
  | struct s t => unfold typeMatch; simp [typeId]

theorem zip_all (p : Ty → Ty → Bool) : ∀ (as fs : List Ty), as.length = fs.length →
    (((as.zip fs).all fun q => p q.1 q.2) = true ↔ ∀ (i : Nat) (a b : Ty), as[i]? = some a → fs[i]? = some b → p a b = true) := by
  intro as
  induction as with
  | nil => intro fs _; simp
  | cons a as ih =>
    intro fs hl
    cases fs with
    | nil => simp at hl
    | cons f fs =>
      rw [List.zip_cons_cons, List.all_cons, Bool.and_eq_true, ih fs (by simpa using hl)]
      constructor
      · rintro ⟨h0, h1⟩ i x y hx hy
        cases i with
        | zero => simp at hx hy; subst hx; subst hy; exact h0
        | succ i => exact h1 i x y (by simpa using hx) (by simpa using hy)
      · intro h
        exact ⟨h 0 a f rfl rfl, fun i x y hx hy => h (i + 1) x y (by simpa using hx) (by simpa using hy)⟩

theorem consistent_iff (c : Call) (f : Fn) : isConsistentCall c f = true ↔ Fits c f := by
  have hm : matchesSignature f c.params c.ret = true ↔ c.params.length = f.params.length ∧ f.ret = c.ret ∧
      ∀ (i : Nat) (a b : Ty), c.params[i]? = some a → f.params[i]? = some b → Match a b := by
    unfold matchesSignature
    by_cases h : f.params.length = c.params.length ∧ f.ret = c.ret
    · rw [if_pos h, zip_all typeMatch _ _ h.1.symm]
      constructor
      · intro ht
        exact ⟨h.1.symm, h.2, fun i a b ha hb => typeMatch_sound (ht i a b ha hb)⟩
      · rintro ⟨_, _, ht⟩ i a b ha hb
        exact typeMatch_complete (ht i a b ha hb)
    · rw [if_neg h]
      constructor
      · intro h; cases h
      · rintro ⟨h1, h2, _⟩; exact absurd ⟨h1.symm, h2⟩ h
  unfold isConsistentCall
  constructor
  · intro h
    split at h
    · cases h
    · split at h
      · cases h
      · split at h
        · cases h
        · rename_i h1 h2 h3
          have h3 : matchesSignature f c.params c.ret = true := by simpa using h3
          obtain ⟨a, b, d⟩ := hm.1 h3
          refine ⟨?_, a, b, d⟩
          by_cases he : c.args.length = f.params.length
          · exact .inl he
          · right
            refine ⟨by omega, ?_⟩
            cases hv : f.vararg with
            | true => rfl
            | false => exact absurd ⟨he, hv⟩ h2
  · intro h
    have h3 := hm.2 ⟨h.params, h.ret, h.types⟩
    have h1 : ¬ c.args.length < f.params.length := by rcases h.args with h | h <;> omega
    have h2 : ¬ (c.args.length ≠ f.params.length ∧ f.vararg = false) := by
      rintro ⟨a, b⟩
      rcases h.args with h | h
      · exact a h
      · rw [b] at h; exact absurd h.2 (by decide)
    rw [if_neg h1, if_neg h2, h3]
    rfl

theorem aliasee_iff (t : Target) (f : Fn) : aliasee t = some f ↔ Denotes t f := by
  constructor
  · intro h
    induction t with
    | fn g => simp only [aliasee, Option.some.injEq] at h; subst h; exact .fn _
    | alias t ih => exact .alias (ih h)
    | other => cases h
  · intro h
    induction h with
    | fn => rfl
    | alias _ ih => exact ih

theorem entryFn_iff (e : Entry) (f : Fn) : entryFn e = some f ↔ ∃ t, e = .bitcast t ∧ Denotes t f := by
  cases e with
  | bitcast t =>
    simp only [entryFn, aliasee_iff]
    exact ⟨fun h => ⟨t, rfl, h⟩, fun ⟨t', h, h'⟩ => by cases h; exact h'⟩
  | direct t => simp [entryFn]
  | other => simp [entryFn]

theorem getVFVector_none (cs : List Comp) : getVFVector cs = none ↔ ∃ es, Comp.array es ∈ cs ∧ es.length < 2 := by
  induction cs with
  | nil => simp [getVFVector]
  | cons c cs ih =>
    cases c with
    | array es =>
      unfold getVFVector
      by_cases h : es.length < 2
      · rw [if_pos h]; simp only [true_iff]; exact ⟨es, by simp, h⟩
      · rw [if_neg h, Option.map_eq_none_iff, ih]
        constructor
        · rintro ⟨x, hx, hl⟩; exact ⟨x, List.mem_cons_of_mem _ hx, hl⟩
        · rintro ⟨x, hx, hl⟩
          rcases List.mem_cons.1 hx with hx | hx
          · cases hx; exact absurd hl h
          · exact ⟨x, hx, hl⟩
    | other =>
      unfold getVFVector
      rw [ih]
      simp

theorem getVFVector_len {cs : List Comp} {r : List (Option Fn)} (h : getVFVector cs = some r) : r.length = width cs := by
  induction cs generalizing r with
  | nil => simp only [getVFVector, Option.some.injEq] at h; subst h; rfl
  | cons c cs ih =>
    cases c with
    | array es =>
      unfold getVFVector at h
      split at h
      · cases h
      · cases hr : getVFVector cs with
        | none => rw [hr] at h; cases h
        | some r' =>
          rw [hr] at h
          simp only [Option.map_some, Option.some.injEq] at h
          subst h
          simp [width, ih hr]
    | other => exact ih h

theorem getVFVector_iff {cs : List Comp} {r : List (Option Fn)} (h : getVFVector cs = some r) (i : Nat) (f : Fn) :
    r[i]? = some (some f) ↔ ∃ j es k t, cs[j]? = some (.array es) ∧ i = width (cs.take j) + k ∧ es[2 + k]? = some (.bitcast t) ∧ Denotes t f := by
  induction cs generalizing r i with
  | nil => simp only [getVFVector, Option.some.injEq] at h; subst h; simp
  | cons c cs ih =>
    cases c with
    | other =>
      rw [ih h]
      constructor
      · rintro ⟨j, es, k, t, h1, h2, h3⟩
        exact ⟨j + 1, es, k, t, h1, by simpa [width] using h2, h3⟩
      · rintro ⟨j, es, k, t, h1, h2, h3⟩
        cases j with
        | zero => simp at h1
        | succ j => exact ⟨j, es, k, t, by simpa using h1, by simpa [width] using h2, h3⟩
    | array es0 =>
      unfold getVFVector at h
      split at h
      · cases h
      · rename_i hlen
        cases hr : getVFVector cs with
        | none => rw [hr] at h; cases h
        | some r' =>
          rw [hr] at h
          simp only [Option.map_some, Option.some.injEq] at h
          subst h
          have hl0 : ((es0.drop 2).map entryFn).length = es0.length - 2 := by simp
          by_cases hi : i < es0.length - 2
          · rw [List.getElem?_append_left (by omega)]
            rw [List.getElem?_map, List.getElem?_drop]
            constructor
            · intro h
              cases he : es0[2 + i]? with
              | none => rw [he] at h; cases h
              | some e =>
                rw [he] at h
                simp only [Option.map_some, Option.some.injEq] at h
                obtain ⟨t, rfl, ht⟩ := (entryFn_iff e f).1 h
                exact ⟨0, es0, i, t, rfl, by simp [width], he, ht⟩
            · rintro ⟨j, es, k, t, h1, h2, h3, h4⟩
              cases j with
              | zero =>
                simp only [List.getElem?_cons_zero, Option.some.injEq, Comp.array.injEq] at h1
                subst h1
                simp only [List.take_zero, width, Nat.zero_add] at h2
                subst h2
                rw [h3]
                simp only [Option.map_some, Option.some.injEq]
                exact (entryFn_iff _ _).2 ⟨t, rfl, h4⟩
              | succ j => simp only [List.take_succ_cons, width] at h2; omega
          · rw [List.getElem?_append_right (by omega), hl0, ih hr]
            constructor
            · rintro ⟨j, es, k, t, h1, h2, h3⟩
              exact ⟨j + 1, es, k, t, h1, by simp only [List.take_succ_cons, width]; omega, h3⟩
            · rintro ⟨j, es, k, t, h1, h2, h3⟩
              cases j with
              | zero =>
                simp only [List.getElem?_cons_zero, Option.some.injEq, Comp.array.injEq] at h1
                subst h1
                simp only [List.take_zero, width, Nat.zero_add] at h2
                subst h2
                have : 2 + i < es0.length := by
                  have := (List.getElem?_eq_some_iff.1 h3.1).1
                  exact this
                omega
              | succ j =>
                refine ⟨j, es, k, t, by simpa using h1, ?_, h3⟩
                simp only [List.take_succ_cons, width] at h2
                omega

theorem getFunction_iff (vft : List (Option Fn)) (i : Nat) (f : Fn) : getFunction vft i = some f ↔ vft[i]? = some (some f) := by
  unfold getFunction
  by_cases h : i < vft.length
  · rw [if_pos h, List.getElem?_eq_getElem h]
    simp
  · rw [if_neg h, List.getElem?_eq_none (by omega)]
    simp

theorem lookup_map (g : Nat → List (Option Fn)) : ∀ (l : List Nat) (t : Nat),
    (l.map fun t => (t, g t)).lookup t = if t ∈ l then some (g t) else none := by
  intro l t
  induction l with
  | nil => rfl
  | cons a l ih =>
    rw [List.map_cons, List.lookup_cons]
    by_cases h : t = a
    · subst h; simp
    · have : (t == a) = false := by simpa using h
      rw [this, ih]
      simp [h]

theorem mapM_some {α β : Type} (f : α → Option β) : ∀ (l : List α) (r : List β), l.mapM f = some r →
    (∀ a ∈ l, ∃ b, f a = some b) ∧ ∀ b, b ∈ r ↔ ∃ a ∈ l, f a = some b := by
  intro l
  induction l with
  | nil => intro r h; simp at h; subst h; simp
  | cons a l ih =>
    intro r h
    rw [List.mapM_cons] at h
    cases ha : f a with
    | none => rw [ha] at h; simp at h
    | some b =>
      rw [ha] at h
      cases hl : l.mapM f with
      | none => rw [hl] at h; simp at h
      | some r' =>
        rw [hl] at h
        simp at h
        subst h
        obtain ⟨h1, h2⟩ := ih r' hl
        constructor
        · intro x hx
          rcases List.mem_cons.1 hx with rfl | hx
          · exact ⟨b, ha⟩
          · exact h1 x hx
        · intro y
          rw [List.mem_cons, h2]
          constructor
          · rintro (rfl | ⟨x, hx, hy⟩)
            · exact ⟨a, by simp, ha⟩
            · exact ⟨x, List.mem_cons_of_mem _ hx, hy⟩
          · rintro ⟨x, hx, hy⟩
            rcases List.mem_cons.1 hx with rfl | hx
            · rw [ha] at hy; exact .inl (by simpa using hy.symm)
            · exact .inr ⟨x, hx, hy⟩

theorem mapM_exists {α β : Type} (f : α → Option β) (l : List α) (h : ∀ a ∈ l, ∃ b, f a = some b) : ∃ r, l.mapM f = some r := by
  induction l with
  | nil => exact ⟨[], by simp⟩
  | cons a l ih =>
    obtain ⟨b, hb⟩ := h a (by simp)
    obtain ⟨r, hr⟩ := ih (fun x hx => h x (List.mem_cons_of_mem _ hx))
    exact ⟨b :: r, by rw [List.mapM_cons, hb, hr]; rfl⟩

theorem provider_lookup {m : Mod} {v : Provider} (h : buildProvider m = some v) (t : Nat) :
    getVFTable v t = if t ∈ m.th.structs then virtualFunctions m t else none := by
  unfold buildProvider at h
  have aux : ∀ (l : List Nat) (v : Provider), (l.mapM fun t => (virtualFunctions m t).map fun r => (t, r)) = some v →
      v.lookup t = if t ∈ l then virtualFunctions m t else none := by
    intro l
    induction l with
    | nil => intro v h; simp at h; subst h; rfl
    | cons a l ih =>
      intro v h
      rw [List.mapM_cons] at h
      cases ha : virtualFunctions m a with
      | none => rw [ha] at h; simp at h
      | some b =>
        rw [ha] at h
        cases hl : (l.mapM fun t => (virtualFunctions m t).map fun r => (t, r)) with
        | none => rw [hl] at h; simp at h
        | some r' =>
          rw [hl] at h
          simp at h
          subst h
          rw [List.lookup_cons]
          by_cases e : t = a
          · subst e; simp [ha]
          · have : (t == a) = false := by simpa using e
            rw [this, ih r' hl]
            simp [e]
  exact aux _ _ h

theorem nonPure_iff (v : Provider) (t i : Nat) (c : Call) (f : Fn) :
    nonPureEntry v t i c = some f ↔ ∃ vft, getVFTable v t = some vft ∧ vft[i]? = some (some f) ∧ f.name ≠ "__cxa_pure_virtual" ∧ Fits c f := by
  unfold nonPureEntry
  cases hv : getVFTable v t with
  | none => simp
  | some vft =>
    simp only [Option.some.injEq, exists_eq_left']
    cases hf : getFunction vft i with
    | none =>
      have := fun h => (getFunction_iff vft i f).2 h
      constructor
      · intro h; cases h
      · rintro ⟨h, _⟩; rw [this h] at hf; cases hf
    | some g =>
      have hg := (getFunction_iff vft i g).1 hf
      simp only
      rw [hg]
      by_cases h : g.name ≠ pureName ∧ isConsistentCall c g = true
      · rw [if_pos h]
        constructor
        · intro e; cases e; exact ⟨rfl, h.1, (consistent_iff c _).1 h.2⟩
        · rintro ⟨e, _⟩; simpa using e
      · rw [if_neg h]
        constructor
        · intro e; cases e
        · rintro ⟨e, h1, h2⟩
          simp only [Option.some.injEq] at e
          subst e
          exact absurd ⟨h1, (consistent_iff c g).2 h2⟩ h

theorem mem_cha (v : Provider) (sub : Nat → List Nat) (c : Call) (f : Fn) :
    f ∈ cha v sub c ↔ ∃ i t, getVFTIndex c = some i ∧ getReceiverType c = some t ∧ ∃ d ∈ sub t, nonPureEntry v d i c = some f := by
  unfold cha
  cases hi : getVFTIndex c with
  | none => simp
  | some i =>
    cases ht : getReceiverType c with
    | none => simp
    | some t => simp [List.mem_filterMap]

theorem ctorCalls_iff {dest : Ty} {t : Nat} : ∀ {cs : List (Option (List Ty))} {r : List Nat}, ctorCalls dest t cs = some r →
    ∀ d, d ∈ r ↔ d = t ∧ ∃ ps, some (dest :: ps) ∈ cs := by
  intro cs
  induction cs with
  | nil => intro r h d; simp only [ctorCalls, Option.some.injEq] at h; subst h; simp
  | cons c cs ih =>
    intro r h d
    match c, h with
    | none, h =>
      rw [ih (by simpa [ctorCalls] using h) d]
      simp
    | some [], h => simp [ctorCalls] at h
    | some (p :: ps), h =>
      simp only [ctorCalls] at h
      cases hr : ctorCalls dest t cs with
      | none => rw [hr] at h; cases h
      | some r' =>
        rw [hr] at h
        simp only [Option.map_some, Option.some.injEq] at h
        subst h
        by_cases e : p = dest
        · subst e
          rw [if_pos rfl, List.mem_cons, ih hr d]
          constructor
          · rintro (rfl | ⟨rfl, ps', h⟩)
            · exact ⟨rfl, ps, by simp⟩
            · exact ⟨rfl, ps', List.mem_cons_of_mem _ h⟩
          · rintro ⟨rfl, _⟩; exact .inl rfl
        · rw [if_neg e, ih hr d]
          constructor
          · rintro ⟨rfl, ps', h⟩; exact ⟨rfl, ps', List.mem_cons_of_mem _ h⟩
          · rintro ⟨rfl, ps', h⟩
            rcases List.mem_cons.1 h with h | h
            · cases h; exact absurd rfl e
            · exact ⟨rfl, ps', h⟩

theorem allocUsers_iff : ∀ {us : List AUser} {r : List Nat}, allocUsers us = some r →
    ∀ d, d ∈ r ↔ ∃ calls ps, AUser.bitcast (.ptr (.struct d)) calls ∈ us ∧ some (Ty.ptr (.struct d) :: ps) ∈ calls := by
  intro us
  induction us with
  | nil => intro r h d; simp only [allocUsers, Option.some.injEq] at h; subst h; simp
  | cons u us ih =>
    intro r h d
    unfold allocUsers at h
    split at h
    · rename_i heq; cases heq
    · rename_i heq
      cases heq
      rw [ih h d]; simp
    · rename_i t calls us' heq
      cases heq
      split at h
      · rename_i a b ha hb
        cases h
        rw [List.mem_append, ctorCalls_iff ha d, ih hb d]
        constructor
        · rintro (⟨rfl, ps, h⟩ | ⟨cl, ps, h, h'⟩)
          · exact ⟨calls, ps, by simp, h⟩
          · exact ⟨cl, ps, List.mem_cons_of_mem _ h, h'⟩
        · rintro ⟨cl, ps, h, h'⟩
          rcases List.mem_cons.1 h with h | h
          · cases h; exact .inl ⟨rfl, ps, h'⟩
          · exact .inr ⟨cl, ps, h, h'⟩
      · cases h
    · rename_i dt cl us' hne heq
      cases heq
      split at h
      · rw [ih h d]
        constructor
        · rintro ⟨cl', ps, h1, h2⟩; exact ⟨cl', ps, List.mem_cons_of_mem _ h1, h2⟩
        · rintro ⟨cl', ps, h1, h2⟩
          rcases List.mem_cons.1 h1 with h1 | h1
          · cases h1; exact absurd rfl (hne d)
          · exact ⟨cl', ps, h1, h2⟩
      · cases h

theorem heap_iff (n : String) : isHeapAllocating n = true ↔ n ∈ ["_Znwm", "_Znam", "_ZnwPv", "malloc", "calloc", "realloc"] := by
  simp [isHeapAllocating, Bool.or_eq_true]
  grind

theorem allocated_iff : ∀ {is : List AInst} {r : List Nat}, allocated is = some r → ∀ d, d ∈ r ↔ ∃ i ∈ is, AllocSite d i := by
  intro is
  induction is with
  | nil => intro r h d; simp only [allocated, Option.some.injEq] at h; subst h; simp
  | cons a is ih =>
    intro r h d
    have hcons : ∀ {P : Prop}, (AllocSite d a ↔ P) → ((∃ i ∈ a :: is, AllocSite d i) ↔ P ∨ ∃ i ∈ is, AllocSite d i) := by
      intro P hP
      simp [← hP]
    unfold allocated at h
    split at h
    · rename_i heq; cases heq
    · rename_i t is' heq
      cases heq
      cases hr : allocated is with
      | none => rw [hr] at h; cases h
      | some r' =>
        rw [hr] at h
        cases h
        rw [hcons (P := d = t) (by
          unfold AllocSite
          constructor
          · rintro (h | ⟨_, _, _, _, h, _⟩)
            · cases h; rfl
            · cases h
          · rintro rfl; exact .inl rfl), List.mem_cons, ih hr d]
    · rename_i n us is' heq
      cases heq
      have hsite : AllocSite d (.call (some n) us) ↔ isHeapAllocating n = true ∧
          ∃ calls ps, AUser.bitcast (.ptr (.struct d)) calls ∈ us ∧ some (Ty.ptr (.struct d) :: ps) ∈ calls := by
        unfold AllocSite
        rw [heap_iff]
        constructor
        · rintro (h | ⟨n', us', cl, ps, h, h1, h2, h3⟩)
          · cases h
          · cases h; exact ⟨h1, cl, ps, h2, h3⟩
        · rintro ⟨h1, cl, ps, h2, h3⟩; exact .inr ⟨n, us, cl, ps, rfl, h1, h2, h3⟩
      rw [hcons hsite]
      split at h
      · rename_i hh
        split at h
        · rename_i a b ha hb
          cases h
          rw [List.mem_append, ih hb d, allocUsers_iff ha d]
          simp [hh]
        · cases h
      · rename_i hh
        rw [ih h d]
        simp [hh]
    · rename_i i is' h1 h2 heq
      cases heq
      rw [ih h d, hcons (P := False) (by
        unfold AllocSite
        constructor
        · rintro (h | ⟨n, us, _, _, h, _⟩)
          · exact h1 d h
          · exact h2 n us h
        · intro h; cases h)]
      simp

theorem mem_rta (v : Provider) (sub : Nat → List Nat) (al : List Nat) (c : Call) (f : Fn) :
    f ∈ rta v sub al c ↔ ∃ i t, getVFTIndex c = some i ∧ getReceiverType c = some t ∧ ∃ d ∈ sub t, nonPureEntry v d i c = some f ∧
      (d ∈ al ∨ ∀ e ∈ sub t, e ∈ al → nonPureEntry v e i c = none) := by
  unfold rta
  cases hi : getVFTIndex c with
  | none => simp
  | some i =>
    cases ht : getReceiverType c with
    | none =>
      have hz : (al.filterMap fun d => if d ∈ ([] : List Nat) then nonPureEntry v d i c else none) = [] := by
        rw [List.filterMap_eq_nil_iff]; intro a _; simp
      simp only [hz, List.isEmpty_nil, if_true, mem_cha, ht]
      simp
    | some t =>
      simp only [Option.some.injEq]
      by_cases he : (al.filterMap fun d => if d ∈ sub t then nonPureEntry v d i c else none) = []
      · rw [he]
        simp only [List.isEmpty_nil, if_true, mem_cha, hi, ht]
        have hn := List.filterMap_eq_nil_iff.1 he
        constructor
        · rintro ⟨i', t', h1, h2, d, hd, hf⟩
          cases h1; cases h2
          refine ⟨i, t, rfl, rfl, d, hd, hf, .inr fun e hes hea => ?_⟩
          have := hn e hea
          simpa [hes] using this
        · rintro ⟨i', t', h1, h2, d, hd, hf, _⟩
          exact ⟨i', t', by rw [h1], by rw [h2], d, by rw [← h2] at hd ⊢; exact hd, hf⟩
      · have : (al.filterMap fun d => if d ∈ sub t then nonPureEntry v d i c else none).isEmpty = false := by
          rw [List.isEmpty_eq_false_iff]; exact he
        rw [this]
        simp only [Bool.false_eq_true, if_false, List.mem_filterMap]
        constructor
        · rintro ⟨d, hd, hf⟩
          by_cases hs : d ∈ sub t
          · rw [if_pos hs] at hf
            exact ⟨i, t, rfl, rfl, d, hs, hf, .inl hd⟩
          · rw [if_neg hs] at hf; cases hf
        · rintro ⟨i', t', h1, h2, d, hd, hf, h | h⟩
          · cases h1; cases h2
            exact ⟨d, h, by rw [if_pos hd]; exact hf⟩
          · cases h1; cases h2
            exfalso
            apply he
            rw [List.filterMap_eq_nil_iff]
            intro e hea
            by_cases hes : e ∈ sub t
            · rw [if_pos hes]; exact h e hes hea
            · rw [if_neg hes]

/-! ### The search through aggregates -/

theorem opFns_iff (K : Nat → Val) (c : Call) (o : Nat) (f : Fn) : f ∈ opFns K c o ↔
    Fits c f ∧ (K o = .fn f ∨ ∃ o' os, K o = .expr true true (o' :: os) ∧ K o' = .fn f) := by
  rw [← consistent_iff]
  unfold opFns
  split
  · rename_i o' os ho
    rw [ho]
    split
    · rename_i g hg
      by_cases h : isConsistentCall c g = true
      · rw [if_pos h, List.mem_singleton]
        constructor
        · rintro rfl; exact ⟨h, .inr ⟨o', os, rfl, hg⟩⟩
        · rintro ⟨_, h' | ⟨o1, os1, h', h''⟩⟩
          · cases h'
          · cases h'; rw [hg] at h''; cases h''; rfl
      · rw [if_neg h]
        constructor
        · intro h; cases h
        · rintro ⟨h0, h' | ⟨o1, os1, h', h''⟩⟩
          · cases h'
          · cases h'; rw [hg] at h''; cases h''; exact absurd h0 h
    · rename_i hne
      constructor
      · intro h; cases h
      · rintro ⟨h0, h' | ⟨o1, os1, h', h''⟩⟩
        · cases h'
        · cases h'; exact absurd h'' (hne f)
  · rename_i g hg
    rw [hg]
    by_cases h : isConsistentCall c g = true
    · rw [if_pos h, List.mem_singleton]
      constructor
      · rintro rfl; exact ⟨h, .inl rfl⟩
      · rintro ⟨_, h' | ⟨o1, os1, h', h''⟩⟩
        · cases h'; rfl
        · cases h'
    · rw [if_neg h]
      constructor
      · intro h; cases h
      · rintro ⟨h0, h' | ⟨o1, os1, h', h''⟩⟩
        · cases h'; exact absurd h0 h
        · cases h'
  · rename_i h1 h2
    constructor
    · intro h; cases h
    · rintro ⟨h0, h' | ⟨o1, os1, h', h''⟩⟩
      · exact absurd h' (h2 f)
      · exact absurd h' (h1 o1 os1)

theorem isAgg_iff (K : Nat → Val) (a : Nat) : isAgg K a = true ↔ ∃ ops, K a = .agg ops := by
  unfold isAgg
  split
  · rename_i ops h; exact ⟨fun _ => ⟨ops, h⟩, fun _ => rfl⟩
  · rename_i h
    constructor
    · intro h; cases h
    · rintro ⟨ops, h'⟩; exact absurd h' (h ops)

theorem opAggs_iff (K : Nat → Val) (o b : Nat) : b ∈ opAggs K o ↔ (∃ ops, K b = .agg ops) ∧ (o = b ∨ K o = .gvar (some b)) := by
  unfold opAggs
  split
  · rename_i ops ho
    rw [List.mem_singleton]
    constructor
    · rintro rfl; exact ⟨⟨ops, ho⟩, .inl rfl⟩
    · rintro ⟨_, h | h⟩
      · exact h.symm
      · rw [ho] at h; cases h
  · rename_i i ho
    by_cases h : isAgg K i = true
    · rw [if_pos h, List.mem_singleton]
      constructor
      · rintro rfl; exact ⟨(isAgg_iff K _).1 h, .inr ho⟩
      · rintro ⟨⟨ops, h1⟩, h' | h'⟩
        · subst h'; rw [ho] at h1; cases h1
        · rw [ho] at h'; cases h'; rfl
    · rw [if_neg h]
      constructor
      · intro h; cases h
      · rintro ⟨⟨ops, h1⟩, h' | h'⟩
        · subst h'; rw [ho] at h1; cases h1
        · rw [ho] at h'; cases h'; exact absurd ((isAgg_iff K _).2 ⟨ops, h1⟩) h
  · rename_i h1 h2
    constructor
    · intro h; cases h
    · rintro ⟨⟨ops, h3⟩, h' | h'⟩
      · subst h'; exact absurd h3 (h1 ops)
      · exact absurd h' (h2 b)

theorem mem_rootAggs (K : Nat → Val) (p a : Nat) : a ∈ rootAggs K p ↔ ∃ ops, K a = .agg ops ∧
    (K p = .gvar (some a) ∨ ∃ k t os o, K p = .expr k t os ∧ o ∈ os ∧ K o = .gvar (some a)) := by
  unfold rootAggs
  rw [List.mem_filterMap]
  have hv : ∀ g, g ∈ rootVars K p ↔ (∃ i, K g = .gvar i) ∧ (g = p ∨ ∃ k t os, K p = .expr k t os ∧ g ∈ os) := by
    intro g
    unfold rootVars
    split
    · rename_i i hp
      rw [List.mem_singleton]
      constructor
      · rintro rfl; exact ⟨⟨i, hp⟩, .inl rfl⟩
      · rintro ⟨_, h | ⟨k, t, os, h, _⟩⟩
        · exact h
        · rw [hp] at h; cases h
    · rename_i k t os hp
      rw [List.mem_filter]
      constructor
      · rintro ⟨h1, h2⟩
        split at h2
        · rename_i i hg; exact ⟨⟨i, hg⟩, .inr ⟨k, t, os, hp, h1⟩⟩
        · cases h2
      · rintro ⟨⟨i, hg⟩, h | ⟨k', t', os', h, h1⟩⟩
        · subst h; rw [hp] at hg; cases hg
        · rw [hp] at h; cases h; exact ⟨h1, by rw [hg]⟩
    · rename_i h1 h2
      constructor
      · intro h; cases h
      · rintro ⟨⟨i, hg⟩, h | ⟨k', t', os', h, _⟩⟩
        · subst h; exact absurd hg (h1 i)
        · exact absurd h (h2 k' t' os')
  constructor
  · rintro ⟨g, hg, h⟩
    obtain ⟨_, hg⟩ := (hv g).1 hg
    split at h
    · rename_i i hi
      split at h
      · rename_i ha
        cases h
        obtain ⟨ops, ho⟩ := (isAgg_iff K _).1 ha
        refine ⟨ops, ho, ?_⟩
        rcases hg with rfl | ⟨k, t, os, h1, h2⟩
        · exact .inl hi
        · exact .inr ⟨k, t, os, g, h1, h2, hi⟩
      · cases h
    · cases h
  · rintro ⟨ops, ha, h⟩
    have haa := (isAgg_iff K a).2 ⟨ops, ha⟩
    rcases h with h | ⟨k, t, os, o, h1, h2, h3⟩
    · exact ⟨p, (hv p).2 ⟨⟨_, h⟩, .inl rfl⟩, by rw [h]; simp [haa]⟩
    · exact ⟨o, (hv o).2 ⟨⟨_, h3⟩, .inr ⟨k, t, os, h1, h2⟩⟩, by rw [h3]; simp [haa]⟩

theorem inside_iff (K : Nat → Val) (a b : Nat) {ops : List Nat} (h : K a = .agg ops) : Inside K a b ↔ b ∈ ops.flatMap (opAggs K) := by
  rw [List.mem_flatMap]
  constructor
  · rintro ⟨ops1, o, ops', h1, h2, h3, h4⟩
    rw [h] at h1; cases h1
    exact ⟨o, h2, (opAggs_iff K o b).2 ⟨⟨ops', h3⟩, h4⟩⟩
  · rintro ⟨o, h2, h3⟩
    obtain ⟨⟨ops', h4⟩, h5⟩ := (opAggs_iff K o b).1 h3
    exact ⟨ops, o, ops', h, h2, h4, h5⟩

theorem holds_iff (K : Nat → Val) (c : Call) (a : Nat) (f : Fn) {ops : List Nat} (h : K a = .agg ops) :
    f ∈ ops.flatMap (opFns K c) ↔ Fits c f ∧ Holds K a f := by
  rw [List.mem_flatMap]
  constructor
  · rintro ⟨o, h1, h2⟩
    obtain ⟨h3, h4⟩ := (opFns_iff K c o f).1 h2
    exact ⟨h3, ops, o, h, h1, h4⟩
  · rintro ⟨h3, ops1, o, h1, h2, h4⟩
    rw [h] at h1; cases h1
    exact ⟨o, h2, (opFns_iff K c o f).2 ⟨h3, h4⟩⟩

/-- Fuel: how much the loop can still do when the aggregates of `u` are not yet visited. -/
def cost (K : Nat → Val) : List Nat → Nat
  | [] => 0
  | a :: u => (match K a with
    | .agg ops => (ops.flatMap (opAggs K)).length
    | _ => 0) + cost K u

theorem cost_perm (K : Nat → Val) {u : List Nat} {a : Nat} (h : a ∈ u) : cost K u = cost K (a :: u.erase a) := by
  induction u with
  | nil => cases h
  | cons b u ih =>
    by_cases e : b = a
    · subst e; simp [cost]
    · have := ih (by rcases List.mem_cons.1 h with h | h; exact absurd h.symm e; exact h)
      rw [List.erase_cons_tail (by simpa using e)]
      simp only [cost] at this ⊢
      omega

theorem aggLoop_some (K : Nat → Val) (c : Call) : ∀ (n : Nat) (wl u seen : List Nat) (r : List Fn), u.Nodup →
    (∀ a, (∃ ops, K a = .agg ops) → a ∈ u ∨ a ∈ seen) → (∀ a ∈ wl, ∃ ops, K a = .agg ops) →
    cost K u + wl.length ≤ n → ∃ r', aggLoop K c n wl seen r = some r' := by
  intro n
  induction n with
  | zero =>
    intro wl u seen r _ _ _ h
    cases wl with
    | nil => exact ⟨r, rfl⟩
    | cons a wl => simp at h
  | succ n ih =>
    intro wl u seen r hd hu hw h
    cases wl with
    | nil => exact ⟨r, rfl⟩
    | cons a wl =>
      simp only [List.length_cons] at h
      unfold aggLoop
      by_cases hs : a ∈ seen
      · rw [if_pos hs]
        exact ih wl u seen r hd hu (fun x hx => hw x (List.mem_cons_of_mem _ hx)) (by omega)
      · rw [if_neg hs]
        obtain ⟨ops, ho⟩ := hw a (by simp)
        have hau : a ∈ u := (hu a ⟨ops, ho⟩).resolve_right hs
        rw [ho]
        simp only
        refine ih _ (u.erase a) (a :: seen) _ (hd.erase a) ?_ ?_ ?_
        · intro b hb
          by_cases e : b = a
          · subst e; simp
          · rcases hu b hb with h | h
            · exact .inl ((List.mem_erase_of_ne e).2 h)
            · exact .inr (List.mem_cons_of_mem _ h)
        · intro b hb
          rw [List.mem_append, List.mem_reverse] at hb
          rcases hb with hb | hb
          · rw [List.mem_flatMap] at hb
            obtain ⟨o, _, h⟩ := hb
            exact ((opAggs_iff K o b).1 h).1
          · exact hw b (List.mem_cons_of_mem _ hb)
        · rw [cost_perm K hau] at h
          simp only [cost, ho] at h
          rw [List.length_append, List.length_reverse]
          omega

theorem aggLoop_mono (K : Nat → Val) (c : Call) : ∀ (n m : Nat) (wl seen : List Nat) (r r' : List Fn), n ≤ m →
    aggLoop K c n wl seen r = some r' → aggLoop K c m wl seen r = some r' := by
  intro n
  induction n with
  | zero =>
    intro m wl seen r r' _ h
    cases wl with
    | nil => cases m <;> exact h
    | cons a wl => cases h
  | succ n ih =>
    intro m wl seen r r' hm h
    cases wl with
    | nil => cases m <;> exact h
    | cons a wl =>
      obtain ⟨m, rfl⟩ : ∃ k, m = k + 1 := ⟨m - 1, by omega⟩
      unfold aggLoop at h ⊢
      split at h
      · rename_i hs
        rw [if_pos hs]; exact ih m _ _ _ _ (by omega) h
      · rename_i hs
        rw [if_neg hs]
        cases hK : K a <;> rw [hK] at h <;> exact ih m _ _ _ _ (by omega) h

/-- What the loop finds: everything below the worklist that is not below visited aggregates only. -/
theorem aggLoop_iff (K : Nat → Val) (c : Call) : ∀ (n : Nat) (wl seen : List Nat) (r r' : List Fn),
    aggLoop K c n wl seen r = some r' → (∀ a ∈ wl, ∃ ops, K a = .agg ops) →
    (∀ a ∈ seen, ∀ f, Fits c f → Holds K a f → f ∈ r) →
    (∀ a ∈ seen, ∀ b, Inside K a b → b ∈ seen ∨ b ∈ wl) →
    ∀ f, f ∈ r' ↔ f ∈ r ∨ (Fits c f ∧ ∃ a ∈ wl, ∃ b, Reach (Inside K) a b ∧ Holds K b f) := by
  intro n
  induction n with
  | zero =>
    intro wl seen r r' h _ _ _ f
    cases wl with
    | nil => cases h; simp
    | cons a wl => cases h
  | succ n ih =>
    intro wl seen r r' h hw hs hc f
    cases wl with
    | nil => cases h; simp
    | cons a wl =>
      have hrest : ∀ {P : Nat → Prop}, (∃ x ∈ a :: wl, P x) ↔ P a ∨ ∃ x ∈ wl, P x := by intro P; simp
      unfold aggLoop at h
      split at h
      · rename_i ha
        rw [ih wl seen r r' h (fun x hx => hw x (List.mem_cons_of_mem _ hx)) hs (fun x hx b hb => by
          rcases hc x hx b hb with h | h
          · exact .inl h
          · rcases List.mem_cons.1 h with rfl | h
            · exact .inl ha
            · exact .inr h) f]
        constructor
        · rintro (h | ⟨h1, x, hx, h2⟩)
          · exact .inl h
          · exact .inr ⟨h1, x, List.mem_cons_of_mem _ hx, h2⟩
        · rintro (h | ⟨h1, x, hx, b, h2, h3⟩)
          · exact .inl h
          · rcases List.mem_cons.1 hx with rfl | hx
            · -- below a visited aggregate: visited as well, or below the rest of the worklist
              have key : ∀ {y}, Reach (Inside K) x y → y ∈ seen ∨ ∃ z ∈ wl, Reach (Inside K) z y := by
                intro y hy
                induction hy with
                | refl => exact .inl ha
                | step _ h4 ih4 =>
                  rcases ih4 with h5 | ⟨z, hz, h5⟩
                  · rcases hc _ h5 _ h4 with h6 | h6
                    · exact .inl h6
                    · rcases List.mem_cons.1 h6 with rfl | h6
                      · exact .inl ha
                      · exact .inr ⟨_, h6, .refl⟩
                  · exact .inr ⟨z, hz, .step h5 h4⟩
              rcases key h2 with h4 | ⟨z, hz, h4⟩
              · exact .inl (hs b h4 f h1 h3)
              · exact .inr ⟨h1, z, hz, b, h4, h3⟩
            · exact .inr ⟨h1, x, hx, b, h2, h3⟩
      · rename_i ha
        obtain ⟨ops, ho⟩ := hw a (by simp)
        rw [ho] at h
        simp only at h
        rw [ih _ _ _ r' h (by
            intro b hb
            rw [List.mem_append, List.mem_reverse] at hb
            rcases hb with hb | hb
            · rw [List.mem_flatMap] at hb
              obtain ⟨o, _, h⟩ := hb
              exact ((opAggs_iff K o b).1 h).1
            · exact hw b (List.mem_cons_of_mem _ hb)) (by
            intro x hx g hg hh
            rw [List.mem_append]
            rcases List.mem_cons.1 hx with rfl | hx
            · exact .inr ((holds_iff K c x g ho).2 ⟨hg, hh⟩)
            · exact .inl (hs x hx g hg hh)) (by
            intro x hx b hb
            rw [List.mem_append, List.mem_reverse]
            rcases List.mem_cons.1 hx with rfl | hx
            · exact .inr (.inl ((inside_iff K x b ho).1 hb))
            · rcases hc x hx b hb with h | h
              · exact .inl (List.mem_cons_of_mem _ h)
              · rcases List.mem_cons.1 h with rfl | h
                · exact .inl (by simp)
                · exact .inr (.inr h)) f, List.mem_append, holds_iff K c a f ho]
        constructor
        · rintro ((h | ⟨h1, h2⟩) | ⟨h1, x, hx, b, h2, h3⟩)
          · exact .inl h
          · exact .inr ⟨h1, a, by simp, a, .refl, h2⟩
          · rw [List.mem_append, List.mem_reverse] at hx
            rcases hx with hx | hx
            · have hab : Inside K a x := (inside_iff K a x ho).2 hx
              refine .inr ⟨h1, a, by simp, b, ?_, h3⟩
              clear h3
              induction h2 with
              | refl => exact .step .refl hab
              | step _ h4 ih4 => exact .step ih4 h4
            · exact .inr ⟨h1, x, List.mem_cons_of_mem _ hx, b, h2, h3⟩
        · rintro (h | ⟨h1, x, hx, b, h2, h3⟩)
          · exact .inl (.inl h)
          · rcases List.mem_cons.1 hx with rfl | hx
            · have key : ∀ {y}, Reach (Inside K) x y → y = x ∨ ∃ z ∈ ops.flatMap (opAggs K), Reach (Inside K) z y := by
                intro y hy
                induction hy with
                | refl => exact .inl rfl
                | step _ h4 ih4 =>
                  rcases ih4 with rfl | ⟨z, hz, h5⟩
                  · exact .inr ⟨_, (inside_iff K _ _ ho).1 h4, .refl⟩
                  · exact .inr ⟨z, hz, .step h5 h4⟩
              rcases key h2 with rfl | ⟨z, hz, h4⟩
              · exact .inl (.inr ⟨h1, h3⟩)
              · exact .inr ⟨h1, z, by rw [List.mem_append, List.mem_reverse]; exact .inl hz, b, h4, h3⟩
            · exact .inr ⟨h1, x, by rw [List.mem_append]; exact .inr hx, b, h2, h3⟩

theorem ownFn_iff (K : Nat → Val) (c : Call) (p : Nat) (f : Fn) : f ∈ ownFn K c p ↔ Fits c f ∧ K p = .fn f := by
  rw [← consistent_iff]
  unfold ownFn
  split
  · rename_i g hg
    rw [hg]
    by_cases h : isConsistentCall c g = true
    · rw [if_pos h, List.mem_singleton]
      constructor
      · rintro rfl; exact ⟨h, rfl⟩
      · rintro ⟨_, h'⟩; cases h'; rfl
    · rw [if_neg h]
      constructor
      · intro h; cases h
      · rintro ⟨h0, h'⟩; cases h'; exact absurd h0 h
  · rename_i h
    constructor
    · intro h; cases h
    · rintro ⟨_, h'⟩; exact absurd h' (h f)

theorem otfPointer_iff (K : Nat → Val) (c : Call) (n : Nat) : ∀ (pts : List Nat) (r r' : List Fn), otfPointer K c n pts r = some r' →
    ∀ f, f ∈ r' ↔ f ∈ r ∨ (Fits c f ∧ ((∃ p ∈ pts, K p = .fn f) ∨ ∃ a b, Root K pts a ∧ Reach (Inside K) a b ∧ Holds K b f)) := by
  intro pts
  induction pts with
  | nil =>
    intro r r' h f
    cases h
    simp [Root]
  | cons p pts ih =>
    intro r r' h f
    unfold otfPointer at h
    split at h
    · cases h
    · rename_i r1 hr
      have h1 := aggLoop_iff K c n _ _ _ _ hr (by
        intro a ha
        rw [List.mem_reverse, mem_rootAggs] at ha
        obtain ⟨ops, ha, _⟩ := ha
        exact ⟨ops, ha⟩) (by simp) (by simp) f
      rw [ih r1 r' h f, h1, List.mem_append, ownFn_iff]
      constructor
      · rintro (((h | ⟨h2, h3⟩) | ⟨h2, a, ha, b, h3, h4⟩) | ⟨h2, ⟨q, hq, h3⟩ | ⟨a, b, ⟨q, hq, h3⟩, h4⟩⟩)
        · exact .inl h
        · exact .inr ⟨h2, .inl ⟨p, by simp, h3⟩⟩
        · rw [List.mem_reverse, mem_rootAggs] at ha
          exact .inr ⟨h2, .inr ⟨a, b, ⟨p, by simp, ha⟩, h3, h4⟩⟩
        · exact .inr ⟨h2, .inl ⟨q, List.mem_cons_of_mem _ hq, h3⟩⟩
        · exact .inr ⟨h2, .inr ⟨a, b, ⟨q, List.mem_cons_of_mem _ hq, h3⟩, h4⟩⟩
      · rintro (h | ⟨h2, ⟨q, hq, h3⟩ | ⟨a, b, ⟨q, hq, h3⟩, h4, h5⟩⟩)
        · exact .inl (.inl (.inl h))
        · rcases List.mem_cons.1 hq with rfl | hq
          · exact .inl (.inl (.inr ⟨h2, h3⟩))
          · exact .inr ⟨h2, .inl ⟨q, hq, h3⟩⟩
        · rcases List.mem_cons.1 hq with rfl | hq
          · exact .inl (.inr ⟨h2, a, by rw [List.mem_reverse, mem_rootAggs]; exact h3, b, h4, h5⟩)
          · exact .inr ⟨h2, .inr ⟨a, b, ⟨q, hq, h3⟩, h4, h5⟩⟩

theorem otfPointer_some (K : Nat → Val) (c : Call) (u : List Nat) (hd : u.Nodup) (hu : ∀ a, (∃ ops, K a = .agg ops) → a ∈ u) (pts : List Nat) :
    ∃ n0, ∀ n, n0 ≤ n → ∀ r, ∃ r', otfPointer K c n pts r = some r' := by
  induction pts with
  | nil => exact ⟨0, fun _ _ r => ⟨r, rfl⟩⟩
  | cons p pts ih =>
    obtain ⟨n0, h0⟩ := ih
    refine ⟨max n0 (cost K u + (rootAggs K p).reverse.length), fun n hn r => ?_⟩
    obtain ⟨r1, h1⟩ := aggLoop_some K c n (rootAggs K p).reverse u [] (r ++ ownFn K c p) hd (fun a ha => .inl (hu a ha)) (by
      intro a ha
      rw [List.mem_reverse, mem_rootAggs] at ha
      obtain ⟨ops, ha, _⟩ := ha
      exact ⟨ops, ha⟩) (by omega)
    obtain ⟨r', h'⟩ := h0 n (by omega) r1
    exact ⟨r', by unfold otfPointer; rw [h1]; exact h'⟩

/-! ### Pairs of actuals and formals -/

theorem mem_pairsArgs : ∀ (as fs : List Ty) (i k : Nat) (x : Formal), (k, x) ∈ pairsArgs i as fs ↔
    ∃ j a f, k = i + j ∧ x = .arg k ∧ as[j]? = some a ∧ fs[j]? = some f ∧ isPtr a = true ∧ isPtr f = true := by
  intro as
  induction as with
  | nil => intro fs i k x; simp [pairsArgs]
  | cons a as ih =>
    intro fs i k x
    cases fs with
    | nil => simp [pairsArgs]
    | cons f fs =>
      unfold pairsArgs
      rw [List.mem_append, ih]
      constructor
      · rintro (h | ⟨j, a', f', h1, h2, h3, h4, h5⟩)
        · split at h
          · rename_i hp
            rw [Bool.and_eq_true] at hp
            rw [List.mem_singleton] at h
            cases h
            exact ⟨0, a, f, rfl, rfl, rfl, rfl, hp⟩
          · cases h
        · exact ⟨j + 1, a', f', by omega, h2, h3, h4, h5⟩
      · rintro ⟨j, a', f', h1, h2, h3, h4, h5⟩
        cases j with
        | zero =>
          simp only [List.getElem?_cons_zero, Option.some.injEq] at h3 h4
          subst h3; subst h4
          rw [if_pos (by simp [h5])]
          left
          rw [h2, h1]; simp
        | succ j => exact .inr ⟨j, a', f', by omega, h2, by simpa using h3, by simpa using h4, h5⟩

theorem mem_pairsPack : ∀ (as : List Ty) (i k : Nat) (x : Formal), (k, x) ∈ pairsPack i as ↔
    ∃ j a, k = i + j ∧ x = .pack ∧ as[j]? = some a ∧ isPtr a = true := by
  intro as
  induction as with
  | nil => intro i k x; simp [pairsPack]
  | cons a as ih =>
    intro i k x
    unfold pairsPack
    rw [List.mem_append, ih]
    constructor
    · rintro (h | ⟨j, a', h1, h2, h3, h5⟩)
      · split at h
        · rename_i hp
          rw [List.mem_singleton] at h
          cases h
          exact ⟨0, a, rfl, rfl, rfl, hp⟩
        · cases h
      · exact ⟨j + 1, a', by omega, h2, h3, h5⟩
    · rintro ⟨j, a', h1, h2, h3, h5⟩
      cases j with
      | zero =>
        simp only [List.getElem?_cons_zero, Option.some.injEq] at h3
        subst h3
        rw [if_pos h5]
        left
        rw [h2, h1]; simp
      | succ j => exact .inr ⟨j, a', by omega, h2, by simpa using h3, h5⟩

end Phasar.Resolver
