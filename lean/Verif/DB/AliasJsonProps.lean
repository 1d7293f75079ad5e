import Verif.DB.AliasJsonLemmas
import Verif.DB.IRDBProps
import Verif.Alias.Props
/-! # C61: alias sets survive being saved and loaded -/
namespace Phasar.DB

open Phasar Phasar.StringID
open Phasar.Alias (St Spec Op Clos Alloc aliasSet aliasQ run specRun bump)

variable {Ty : Type} [DecidableEq Ty]

/-- `owned` lists the sets that the owner holds, in any order. -/
def C61.Owned (s : St Val) (owned : List Nat) : Prop := owned.Nodup ∧ ∀ a, a ∈ owned ↔ s.sets a ≠ none

/-- C61: for alias sets computed in any way, in which every known value either has no id or an id that leads back to it (see
C60), saving and loading keeps, for the values that have an id, exactly the aliases, and drops the other values; the analysed
functions are kept.  It needs at least one value with an id and one analysed function. -/
theorem C61_reload_partial (db : IRDB) (fresh fresh' : St Val → Nat) (hf : Alloc fresh) (hf' : Alloc fresh') (may : Val → Val → Bool)
    (ty : Val → Ty) (os : List (Op Val)) (sp : Spec Val) (h : specRun may ty ⟨[], [], []⟩ os = some sp)
    (hg : ∀ v ∈ sp.known, getMetaDataID db v = ascii "-1" ∨ fromMetaDataId db (getMetaDataID db v) = some v)
    (hex : ∃ v ∈ sp.known, getMetaDataID db v ≠ ascii "-1") (done : List Fun) (hd : done ≠ [])
    (hfn : ∀ f ∈ done, getFunction db f.name = some f) :
    ∃ s reps, run fresh may ty (Alias.empty, []) os = some (s, reps) ∧ ∀ owned, C61.Owned s owned →
      ∃ j s', getAsJson db s owned done = some j ∧ load db fresh' j = some (s', done) ∧
        (∀ p, (∃ S, aliasSet s' p = some S) ↔ p ∈ sp.known ∧ getMetaDataID db p ≠ ascii "-1") ∧
        ∀ p S, aliasSet s' p = some S → S.Nodup ∧
          ∀ q, q ∈ S ↔ q ∈ sp.known ∧ getMetaDataID db q ≠ ascii "-1" ∧ Clos sp.pairs p q := by
  obtain ⟨⟨s, reps⟩, h1, h2, _⟩ := Alias.run_spec hf os (p := (Alias.empty, [])) (sp := ⟨[], [], []⟩)
    ⟨Alias.inv_empty, rfl, fun x hx => by cases hx⟩ h
  refine ⟨s, reps, h1, fun owned hown => ?_⟩
  obtain ⟨j, s', K', Q, g1, g2, g3, g4, g5⟩ := reload_ok hf' h2.1 owned hown.1 hown.2 hg hex done hd hfn
  refine ⟨j, s', g1, g2, fun p => ?_, fun p S hS => ?_⟩
  · constructor
    · rintro ⟨S, hS⟩
      refine (g4 p).1 ((g3.known p).1 ?_)
      unfold aliasSet at hS
      cases hb : s'.al p with
      | none => rw [hb] at hS; cases hS
      | some b => exact ⟨b, rfl⟩
    · intro hp
      obtain ⟨S, hS, _⟩ := g3.set_spec ((g4 p).2 hp)
      exact ⟨S, hS⟩
  · have hp : p ∈ K' := (g3.known p).1 (by
      unfold aliasSet at hS
      cases hb : s'.al p with
      | none => rw [hb] at hS; cases hS
      | some b => exact ⟨b, rfl⟩)
    obtain ⟨S', h3, h4, h5⟩ := g3.set_spec hp
    rw [h3] at hS
    injection hS with hS
    subst hS
    refine ⟨h4, fun q => ?_⟩
    rw [h5 q]
    constructor
    · rintro ⟨hq, hc⟩
      exact ⟨((g4 q).1 hq).1, ((g4 q).1 hq).2, (g5 p q hp hq).1 hc⟩
    · rintro ⟨hq, hid, hc⟩
      have hq' := (g4 q).2 ⟨hq, hid⟩
      exact ⟨hq', (g5 p q hp hq').2 hc⟩

/-- C61: if every known value has an id that leads back to it, the loaded alias sets are the saved ones, and whatever is computed
with them afterwards is what is computed from the saved ones (with the representatives of the function left). -/
theorem C61_resume (db : IRDB) (fresh fresh' : St Val → Nat) (hf : Alloc fresh) (hf' : Alloc fresh') (may : Val → Val → Bool) (ty : Val → Ty)
    (os os' : List (Op Val)) (sp sp' : Spec Val) (h : specRun may ty ⟨[], [], []⟩ os = some sp)
    (hg : ∀ v ∈ sp.known, fromMetaDataId db (getMetaDataID db v) = some v) (hne : sp.known ≠ []) (done : List Fun) (hd : done ≠ [])
    (hfn : ∀ f ∈ done, getFunction db f.name = some f)
    (h' : specRun may ty ⟨sp.known, [], sp.pairs⟩ os' = some sp') :
    ∃ s reps, run fresh may ty (Alias.empty, []) os = some (s, reps) ∧ ∀ owned, C61.Owned s owned →
      ∃ j s' s'' reps', getAsJson db s owned done = some j ∧ load db fresh' j = some (s', done) ∧
        run fresh' may ty (s', []) os' = some (s'', reps') ∧
        (∀ p, (∃ S, aliasSet s'' p = some S) ↔ p ∈ sp'.known) ∧
        ∀ p S, aliasSet s'' p = some S → ∀ q, q ∈ S ↔ q ∈ sp'.known ∧ Clos sp'.pairs p q := by
  have hid : ∀ v ∈ sp.known, getMetaDataID db v ≠ [45, 49] := fun v hv he => by
    have := hg v hv
    rw [he] at this
    cases this
  obtain ⟨⟨s, reps⟩, h1, h2, _⟩ := Alias.run_spec hf os (p := (Alias.empty, [])) (sp := ⟨[], [], []⟩)
    ⟨Alias.inv_empty, rfl, fun x hx => by cases hx⟩ h
  refine ⟨s, reps, h1, fun owned hown => ?_⟩
  obtain ⟨v0, hv0⟩ := List.exists_mem_of_ne_nil _ hne
  obtain ⟨j, s', K', Q, g1, g2, g3, g4, g5⟩ := reload_ok hf' h2.1 owned hown.1 hown.2 (fun v hv => .inr (hg v hv))
    ⟨v0, hv0, hid v0 hv0⟩ done hd hfn
  have hK : ∀ v, v ∈ K' ↔ v ∈ sp.known := fun v => (g4 v).trans ⟨fun h => h.1, fun h => ⟨h, hid v h⟩⟩
  have hcl : ∀ {u v : Val}, Clos Q u v → u = v ∨ u ∈ K' ∧ v ∈ K' := by
    intro u v hc
    induction hc with
    | pair hp => exact .inr (g3.pk _ _ hp)
    | refl a => exact .inl rfl
    | symm _ ih => exact ih.imp Eq.symm And.symm
    | trans _ _ i1 i2 =>
      rcases i1 with rfl | i1
      · exact i2
      · rcases i2 with rfl | i2
        · exact .inr i1
        · exact .inr ⟨i1.1, i2.2⟩
  have hi' : Alias.Inv s' sp.known sp.pairs := by
    have := g3.mono (K' := sp.known) (P' := Q) hK (fun _ hp => hp) g3.cmp (fun u v huv => ⟨(hK u).1 (g3.pk u v huv).1, (hK v).1 (g3.pk u v huv).2⟩)
    refine this.equiv (fun a b hab => ?_) (fun a b hab => ?_) (fun u v huv => h2.1.pk u v huv)
    · have := g3.pk a b hab
      exact (g5 a b this.1 this.2).1 (.pair hab)
    · have := h2.1.pk a b hab
      exact (g5 a b ((hK a).2 this.1) ((hK b).2 this.2)).2 (.pair hab)
  obtain ⟨⟨s'', reps'⟩, k1, k2, _⟩ := Alias.run_spec hf' os' (p := (s', [])) (sp := ⟨sp.known, [], sp.pairs⟩)
    ⟨hi', rfl, fun x hx => by cases hx⟩ h'
  have kn : ∀ p, (∃ S, aliasSet s'' p = some S) → p ∈ sp'.known := by
    rintro p ⟨S, hS⟩
    refine (k2.1.known p).1 ?_
    unfold aliasSet at hS
    cases hb : s''.al p with
    | none => rw [hb] at hS; cases hS
    | some b => exact ⟨b, rfl⟩
  refine ⟨j, s', s'', reps', g1, g2, k1, fun p => ⟨kn p, fun hp => ?_⟩, fun p S hS => ?_⟩
  · obtain ⟨S, hS, _⟩ := k2.1.set_spec hp
    exact ⟨S, hS⟩
  · obtain ⟨S', h3, _, h5⟩ := k2.1.set_spec (kn p ⟨S, hS⟩)
    rw [h3] at hS
    injection hS with hS
    subst hS
    exact h5

/-! ### What is not kept -/

/-- The module of the examples: `main(argv)` with an instruction, and `f.1(x)` with one; `f(a, b)`. -/
def C61.mod : Module := ⟨[7], [⟨0, ascii "main", 1, [[1, 2]]⟩, ⟨1, ascii "f", 2, [[3]]⟩, ⟨2, ascii "f.1", 1, [[4]]⟩]⟩

/-- Its database. -/
def C61.db : IRDB := (construct true C61.mod (fun _ => none)).getD ⟨C61.mod, fun _ => none, 0, [], []⟩

/-- Saving and loading, then a query; with the allocator `bump` and the owned sets in the order of their addresses. -/
def C61.trip (os : List (Op Val)) (n : Nat) (done : List Fun) : Option (St Val × List Fun) :=
  ((run bump (fun _ _ => false) (fun _ => 0) (Alias.empty, []) os).bind (fun p =>
    getAsJson C61.db p.1 ((List.range n).filter (fun a => (p.1.sets a).isSome)) done)).bind (load C61.db bump)

/-- C61 is false for function pointers: functions have no id.  A pointer that aliases a function does not alias it any more,
and the analysed functions say that nothing needs to be computed again: a query for the function makes it known alone. -/
theorem C61_functions_false :
    ((run bump (fun _ _ => false) (fun _ => 0) ((Alias.empty : St Val), []) [.single (.inst 1), .single (.fn 1), .merge (.inst 1) (.fn 1)]).bind
      (fun p => aliasQ p.1 (.inst 1) (.fn 1))) = some true ∧
    ((C61.trip [.single (.inst 1), .single (.fn 1), .merge (.inst 1) (.fn 1)] 3 [⟨0, ascii "main", 1, [[1, 2]]⟩]).map
      (fun r => (aliasSet r.1 (.inst 1), r.2.map Fun.name))) = some (some [.inst 1], [ascii "main"]) ∧
    ((C61.trip [.single (.inst 1), .single (.fn 1), .merge (.inst 1) (.fn 1)] 3 [⟨0, ascii "main", 1, [[1, 2]]⟩]).bind
      (fun r => (run bump (fun _ _ => false) (fun _ => 0) (r.1, []) [.single (.fn 1)]).bind
        (fun p => aliasQ p.1 (.inst 1) (.fn 1)))) = some false := by
  decide +kernel

/-- C61 is false for arguments of functions with a dot in their names: the id of the argument of `f.1` is loaded as the second
argument of `f`.  Here the loaded sets are no partition: the set of instruction 4 contains that argument, the set of the
argument does not contain the instruction. -/
theorem C61_dotted_false :
    (C61.trip [.single (.inst 4), .single (.arg 2 0), .merge (.inst 4) (.arg 2 0), .single (.arg 1 1)] 4
      [⟨2, ascii "f.1", 1, [[4]]⟩]).map (fun r => (aliasQ r.1 (.inst 4) (.arg 1 1), aliasQ r.1 (.arg 1 1) (.inst 4),
        aliasQ r.1 (.inst 4) (.arg 2 0))) = some (some true, some false, some false) := by
  decide +kernel

/-- C61 is false if nothing was computed yet: the empty sets and functions are saved as `null`, which fails the assertions of
the constructor. -/
theorem C61_empty_false (db : IRDB) (fresh : St Val → Nat) :
    ∃ j, getAsJson db Alias.empty [] [] = some j ∧ load db fresh j = none := ⟨⟨none, none⟩, rfl, rfl⟩

/-- The address of every box is that of a set. -/
def C61.Live (s : St Val) : Prop := (∀ a ∈ s.boxes, s.sets a ≠ none) ∧ ∀ a, s.sets a ≠ none → a ∈ s.boxes

theorem C61.loadOne_live {db : IRDB} {s : St Val} {b : Nat} (h : C61.Live s) (hb : b < s.boxes.length) (x : Str) :
    ∃ s', loadOne db b s x = some s' ∧ C61.Live s' ∧ s'.boxes = s.boxes := by
  unfold loadOne
  cases fromMetaDataId db x with
  | none => exact ⟨s, rfl, h, rfl⟩
  | some v =>
    have ha : s.boxes[b]? = some s.boxes[b] := List.getElem?_eq_getElem hb
    have hl := h.1 _ (List.getElem_mem hb)
    obtain ⟨S, hS⟩ := Option.ne_none_iff_exists'.1 hl
    refine ⟨(s.setAl v b).put s.boxes[b] (some (Phasar.Alias.ins S v)), by simp [assign, ha, hS], ⟨?_, ?_⟩, rfl⟩
    · intro a hm
      show (if a = s.boxes[b] then _ else s.sets a) ≠ none
      split
      · simp
      · exact h.1 a hm
    · intro a hm
      show a ∈ s.boxes
      rcases Classical.em (a = s.boxes[b]) with e | e
      · rw [e]; exact List.getElem_mem hb
      · refine h.2 a ?_
        have : (if a = s.boxes[b] then some (Phasar.Alias.ins S v) else s.sets a) ≠ none := hm
        rwa [if_neg e] at this

theorem C61.loadSet_live {db : IRDB} {fresh : St Val → Nat} (hf : Alloc fresh) {s : St Val} (h : C61.Live s) (xs : List Str) :
    ∃ s', loadSet db fresh s xs = some s' ∧ C61.Live s' := by
  have hn := hf s h.2
  unfold loadSet Phasar.Alias.acquire
  rw [if_pos (by simp [hn])]
  have key : ∀ (xs : List Str) (s1 : St Val) (b : Nat), C61.Live s1 → b < s1.boxes.length →
      ∃ s', xs.foldlM (loadOne db b) s1 = some s' ∧ C61.Live s' := by
    intro xs
    induction xs with
    | nil => intro s1 b h1 _; exact ⟨s1, rfl, h1⟩
    | cons x xs ih =>
      intro s1 b h1 hb
      obtain ⟨s2, e2, l2, b2⟩ := C61.loadOne_live h1 hb x
      obtain ⟨s3, e3, l3⟩ := ih s2 b l2 (by rw [b2]; exact hb)
      exact ⟨s3, by rw [List.foldlM_cons, e2]; exact e3, l3⟩
  refine key xs _ _ ⟨?_, ?_⟩ (by simp)
  · intro a hm
    show (if a = fresh s then some [] else s.sets a) ≠ none
    split
    · simp
    · rename_i e
      exact h.1 a (by simpa [e] using hm)
  · intro a hm
    show a ∈ s.boxes ++ [fresh s]
    rcases Classical.em (a = fresh s) with e | e
    · simp [e]
    · refine List.mem_append_left _ (h.2 a ?_)
      have : (if a = fresh s then some [] else s.sets a) ≠ none := hm
      rwa [if_neg e] at this

/-- C61: a document whose two fields are arrays is always loaded, also one of another module: ids and functions that the module
does not have are skipped. -/
theorem C61_foreign (db : IRDB) (fresh : St Val → Nat) (hf : Alloc fresh) (sets : List (List Str)) (fns : List Str) :
    ∃ s, load db fresh ⟨some sets, some fns⟩ = some (s, fns.filterMap (getFunction db)) ∧
      load db fresh ⟨some (sets.map (fun S => S.filter (fun x => (fromMetaDataId db x).isSome))), some fns⟩ =
        some (s, fns.filterMap (getFunction db)) := by
  have key : ∀ (sets : List (List Str)) (s : St Val), C61.Live s → ∃ s', sets.foldlM (loadSet db fresh) s = some s' := by
    intro sets
    induction sets with
    | nil => intro s _; exact ⟨s, rfl⟩
    | cons S sets ih =>
      intro s h
      obtain ⟨s1, e1, l1⟩ := C61.loadSet_live hf h S
      obtain ⟨s2, e2⟩ := ih s1 l1
      exact ⟨s2, by rw [List.foldlM_cons, e1]; exact e2⟩
  obtain ⟨s, hs⟩ := key sets Alias.empty ⟨fun a h => (nomatch h), fun a h => absurd rfl h⟩
  have hone : ∀ (b : Nat) (xs : List Str) (t : St Val), (xs.filter (fun x => (fromMetaDataId db x).isSome)).foldlM (loadOne db b) t =
      xs.foldlM (loadOne db b) t := by
    intro b xs
    induction xs with
    | nil => intro t; rfl
    | cons x xs ih =>
      intro t
      cases hx : fromMetaDataId db x with
      | none =>
        rw [List.filter_cons_of_neg (by simp [hx]), ih, List.foldlM_cons]
        simp [loadOne, hx]
      | some v =>
        rw [List.filter_cons_of_pos (by simp [hx]), List.foldlM_cons, List.foldlM_cons]
        cases loadOne db b t x with
        | none => rfl
        | some t' => exact ih t'
  have hall : ∀ (sets : List (List Str)) (t : St Val),
      (sets.map (fun S => S.filter (fun x => (fromMetaDataId db x).isSome))).foldlM (loadSet db fresh) t =
        sets.foldlM (loadSet db fresh) t := by
    intro sets
    induction sets with
    | nil => intro t; rfl
    | cons S sets ih =>
      intro t
      have h1 : loadSet db fresh t (S.filter (fun x => (fromMetaDataId db x).isSome)) = loadSet db fresh t S := by
        unfold loadSet
        cases Phasar.Alias.acquire t (fresh t) with
        | none => rfl
        | some r => exact hone r.2 S r.1
      rw [List.map_cons, List.foldlM_cons, List.foldlM_cons, h1]
      cases loadSet db fresh t S with
      | none => rfl
      | some t' => exact ih t'
  exact ⟨s, by simp [load, hs], by simp [load, hall, hs]⟩

/-! ### The hypotheses can be met -/

/-- Steps over instructions, a global variable and an argument. -/
def C61.ops : List (Op Val) :=
  [.single (.glob 7), .newFn, .ptr (.inst 1), .ptr (.inst 2), .ptr (.arg 0 0), .merge (.inst 2) (.glob 7)]

example : (C61.trip C61.ops 8 [⟨0, ascii "main", 1, [[1, 2]]⟩]).map
    (fun r => (aliasSet r.1 (.glob 7), aliasSet r.1 (.inst 2), aliasSet r.1 (.inst 1), aliasSet r.1 (.arg 0 0))) =
    some (some [.glob 7, .inst 2], some [.glob 7, .inst 2], some [.inst 1], some [.arg 0 0]) := by decide +kernel

example := C61_foreign C61.db bump Alias.C31.bump_alloc [[ascii "0", ascii "77"], [ascii "g.0"]] [ascii "main", ascii "h"]
example : ((load C61.db bump ⟨some [[ascii "0", ascii "77"], [ascii "g.0"]], some [ascii "main", ascii "h"]⟩).map
    (fun r => (aliasSet r.1 (.glob 7), r.2.map Fun.name))) = some (some [.glob 7], [ascii "main"]) := by decide +kernel

example := C61_reload_partial C61.db bump bump Alias.C31.bump_alloc Alias.C31.bump_alloc (fun _ _ => false) (fun _ => 0) (C61.ops ++ [.single (.fn 1)])
  _ rfl (by decide +kernel) ⟨.inst 1, by decide +kernel, by decide +kernel⟩ [⟨0, ascii "main", 1, [[1, 2]]⟩] (by decide) (by decide +kernel)

example := C61_resume C61.db bump bump Alias.C31.bump_alloc Alias.C31.bump_alloc (fun _ _ => false) (fun _ => 0) C61.ops [.single (.inst 3)]
  _ _ rfl (by decide +kernel) (by decide) [⟨0, ascii "main", 1, [[1, 2]]⟩] (by decide) (by decide +kernel) rfl

end Phasar.DB
