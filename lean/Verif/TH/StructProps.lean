import Verif.TH.Struct
import Verif.TH.DILemmas
import Verif.CG.BuilderLemmas
/-!
# C44: the hierarchy from struct types, and reading serialized hierarchies back

Specification.  `SBase m d b`: the type info of `d` names `b` as a base.  A subtype of `t` is a struct type from which a chain
of bases leads to `t`.
-/
namespace Phasar.TH

/-- Spec: the type-info variable of `d` refers to that of `b` through a cast (in modules without opaque pointers it always
does). -/
def SBase (m : SMod) (d b : Nat) : Prop :=
  d ∈ m.structs ∧ b ∈ m.structs ∧ ∃ ti ∈ m.tis, ti.clear = clearName (m.name d) ∧
    ∃ ops, ti.init = some ops ∧ TIOp.bitcast (clearName (m.name b)) ∈ ops

/-- Names without their prefix identify struct types and type-info variables. -/
structure Distinct (m : SMod) : Prop where
  types : ∀ a ∈ m.structs, ∀ b ∈ m.structs, clearName (m.name a) = clearName (m.name b) → a = b
  infos : ∀ a ∈ m.tis, ∀ b ∈ m.tis, a.clear = b.clear → a = b

theorem C44.typeByName {m : SMod} (hd : Distinct m) {a : Nat} {c : List Char} :
    typeByName m c = some a ↔ a ∈ m.structs ∧ clearName (m.name a) = c := by
  unfold TH.typeByName
  constructor
  · intro h
    have := List.mem_of_getLast? h
    simpa using this
  · rintro ⟨h1, h2⟩
    cases hl : (m.structs.filter fun t => clearName (m.name t) = c).getLast? with
    | none =>
      rw [List.getLast?_eq_none_iff, List.filter_eq_nil_iff] at hl
      exact absurd h2 (by simpa using hl a h1)
    | some b =>
      have hb := List.mem_of_getLast? hl
      simp at hb
      rw [hd.types b hb.1 a h1 (by rw [hb.2, h2])]

theorem C44.tiByName {m : SMod} (hd : Distinct m) {ti : TI} {c : List Char} :
    tiByName m c = some ti ↔ ti ∈ m.tis ∧ ti.clear = c := by
  unfold TH.tiByName
  constructor
  · intro h
    have := List.mem_of_getLast? h
    simpa using this
  · rintro ⟨h1, h2⟩
    cases hl : (m.tis.filter fun t => t.clear = c).getLast? with
    | none =>
      rw [List.getLast?_eq_none_iff, List.filter_eq_nil_iff] at hl
      exact absurd h2 (by simpa using hl ti h1)
    | some b =>
      have hb := List.mem_of_getLast? hl
      simp at hb
      rw [hd.infos b hb.1 ti h1 (by rw [hb.2, h2])]

theorem C44.basesOf {m : SMod} (hd : Distinct m) {d b : Nat} (h : d ∈ m.structs) : b ∈ basesOf m d ↔ SBase m d b := by
  unfold TH.basesOf SBase
  constructor
  · intro hb
    cases hti : TH.tiByName m (clearName (m.name d)) with
    | none => rw [hti] at hb; cases hb
    | some ti =>
      rw [hti] at hb
      simp only at hb
      cases hi : ti.init with
      | none => rw [hi] at hb; cases hb
      | some ops =>
        rw [hi] at hb
        simp only [List.mem_filterMap] at hb
        obtain ⟨o, ho, hob⟩ := hb
        cases o with
        | bitcast c =>
          obtain ⟨h1, h2⟩ := (C44.typeByName hd).1 hob
          obtain ⟨h3, h4⟩ := (C44.tiByName hd).1 hti
          exact ⟨h, h1, ti, h3, h4, ops, hi, by rw [h2]; exact ho⟩
        | direct => cases hob
        | other => cases hob
  · rintro ⟨-, h1, ti, h2, h3, ops, h4, h5⟩
    rw [(C44.tiByName hd).2 ⟨h2, h3⟩]
    simp only [h4, List.mem_filterMap]
    exact ⟨_, h5, (C44.typeByName hd).2 ⟨h1, rfl⟩⟩

theorem C44.edges {m : SMod} (hd : Distinct m) {a b : Nat} : (a, b) ∈ edgesOf m ↔ SBase m b a := by
  unfold edgesOf
  rw [List.mem_flatMap]
  constructor
  · rintro ⟨t, ht, hb⟩
    rw [List.mem_map] at hb
    obtain ⟨b', hb', he⟩ := hb
    cases he
    exact (C44.basesOf hd ht).1 hb'
  · intro h
    exact ⟨b, h.1, List.mem_map.2 ⟨a, (C44.basesOf hd h.1).2 h, rfl⟩⟩

theorem C44.close {es : List (Nat × Nat)} {V : List Nat} (hes : ∀ e ∈ es, e.2 ∈ V) {t : Nat} : ∀ (n : Nat) (s : List Nat),
    s.Nodup → (∀ x ∈ s, x ∈ V) → V.length ≤ n + s.length → t ∈ s → (∀ x ∈ s, Star (fun a b => (a, b) ∈ es) t x) →
    ∀ x, x ∈ close es n s ↔ Star (fun a b => (a, b) ∈ es) t x := by
  intro n
  have closed : ∀ s : List Nat, t ∈ s → (∀ x ∈ s, Star (fun a b => (a, b) ∈ es) t x) →
      (∀ e ∈ es, ¬ (e.1 ∈ s ∧ e.2 ∉ s)) → ∀ x, x ∈ s ↔ Star (fun a b => (a, b) ∈ es) t x := by
    intro s ht hs hc x
    refine ⟨hs x, fun h => ?_⟩
    have : ∀ a x, Star (fun a b => (a, b) ∈ es) a x → a ∈ s → x ∈ s := by
      intro a x h
      induction h with
      | refl => exact id
      | head h _ ih =>
        intro ha
        apply ih
        exact Classical.byContradiction fun hn => hc _ h ⟨ha, hn⟩
    exact this t x h ht
  induction n with
  | zero =>
    intro s hn hsub hl ht hs
    apply closed s ht hs
    intro e he h
    exact h.2 (CG.nodup_mem hn hsub (by omega) _ (hes e he))
  | succ n ih =>
    intro s hn hsub hl ht hs
    unfold TH.close
    cases hf : es.find? fun e => decide (e.1 ∈ s ∧ e.2 ∉ s) with
    | none =>
      apply closed s ht hs
      intro e he h
      have := List.find?_eq_none.1 hf e he
      rw [decide_eq_true_eq] at this
      exact this h
    | some e =>
      have hp := List.find?_some hf
      rw [decide_eq_true_eq] at hp
      have hm := List.mem_of_find?_eq_some hf
      apply ih
      · exact List.nodup_cons.2 ⟨hp.2, hn⟩
      · intro x hx
        rcases List.mem_cons.1 hx with rfl | hx
        · exact hes e hm
        · exact hsub x hx
      · rw [List.length_cons]; omega
      · exact List.mem_cons_of_mem _ ht
      · intro x hx
        rcases List.mem_cons.1 hx with rfl | hx
        · exact (hs _ hp.1).trans (.single hm)
        · exact hs x hx

/-! ## The property -/

/-- `getSubTypes(t)` and `isSubType` of the struct-type hierarchy: exactly the types from which a chain of bases leads to `t`,
including `t`.  The names without prefix must be distinct (see `C44_struct_clash_false`) and the type infos refer to their
bases through casts (see `C44_struct_opaque_false`). -/
theorem C44_struct_subtypes_partial (m : SMod) (hd : Distinct m) (t s : Nat) :
    (s ∈ sSubTypes m t ↔ t ∈ m.structs ∧ Star (SBase m) s t) ∧
    (sIsSubType m t s = true ↔ t ∈ m.structs ∧ Star (SBase m) s t) := by
  have key : s ∈ sSubTypes m t ↔ t ∈ m.structs ∧ Star (SBase m) s t := by
    unfold sSubTypes
    by_cases ht : t ∈ m.structs
    · rw [if_pos ht]
      unfold reachable
      rw [C44.close (V := m.structs) (t := t) (fun e he => ((C44.edges hd).1 he).1) _ [t] (by simp) (by simpa using ht) (by simp)
        (by simp) (by intro x hx; rw [List.mem_singleton.1 hx]; exact .refl t) s]
      constructor
      · intro h
        have := h.reverse
        have he : (fun x y => (y, x) ∈ edgesOf m) = SBase m := by
          funext x y; exact propext (C44.edges hd)
        rw [he] at this
        exact ⟨ht, this⟩
      · rintro ⟨-, h⟩
        have := h.reverse
        have he : (fun x y => SBase m y x) = fun a b => (a, b) ∈ edgesOf m := by
          funext x y; exact propext (C44.edges hd).symm
        rw [he] at this
        exact this
    · rw [if_neg ht]
      constructor
      · intro h; cases h
      · rintro ⟨h, -⟩; exact absurd h ht
  exact ⟨key, by rw [sIsSubType, List.contains_iff_mem]; exact key⟩

/-- Reading the serialized struct-type hierarchy back gives the same answers, if names are distinct. -/
theorem C44_struct_roundtrip_partial (m : SMod) (hn : ∀ a ∈ m.structs, ∀ b ∈ m.structs, m.name a = m.name b → a = b)
    (hd : Distinct m) :
    ∃ l, sLoad m (sData m) = some l ∧ l.map (·.1) = m.structs ∧ ∀ e ∈ l, ∀ x, x ∈ e.2 ↔ x ∈ sSubTypes m e.1 := by
  have hby : ∀ t ∈ m.structs, structByName m (m.name t) = some t := by
    intro t ht
    unfold structByName
    cases hf : m.structs.find? fun t' => decide (m.name t' = m.name t) with
    | none =>
      have := List.find?_eq_none.1 hf t ht
      simp at this
    | some t' =>
      have h1 := List.find?_some hf
      have h2 := List.mem_of_find?_eq_some hf
      rw [decide_eq_true_eq] at h1
      rw [hn t' h2 t ht h1]
  have hentry' : ∀ (ds acc : List Nat), (∀ x ∈ ds, x ∈ m.structs) →
      (ds.map m.name).foldlM (fun acc n => match structByName m n with
        | none => none
        | some d => some (acc ++ [d])) acc = some (acc ++ ds) := by
    intro ds
    induction ds with
    | nil => intro acc _; simp
    | cons x ds ih =>
      intro acc h
      rw [List.map_cons, List.foldlM_cons, hby x (h x (by simp))]
      simp only [Option.bind_eq_bind, Option.bind_some]
      rw [ih _ (fun y hy => h y (by simp [hy]))]
      simp
  have hentry : ∀ (ds : List Nat) (t : Nat), (∀ x ∈ ds, x ∈ m.structs) →
      sLoadEntry m (ds.map m.name) t = some (t :: ds) := fun ds t h => hentry' ds [t] h
  have hsub : ∀ t ∈ m.structs, ∀ x ∈ reachable m t, x ∈ m.structs := by
    intro t ht x hx
    have h1 := (C44_struct_subtypes_partial m hd t x).1.1 (by rw [sSubTypes, if_pos ht]; exact hx)
    cases h1.2 with
    | refl => exact ht
    | head h _ => exact h.1
  have main : ∀ (ts : List Nat) (acc : List (Nat × List Nat)), (∀ t ∈ ts, t ∈ m.structs) →
      (ts.map fun t => (m.name t, (reachable m t).map m.name)).foldlM (fun acc e => match structByName m e.1 with
        | none => some acc
        | some src => (sLoadEntry m e.2 src).map fun r => acc ++ [(src, r)]) acc =
      some (acc ++ ts.map fun t => (t, t :: reachable m t)) := by
    intro ts
    induction ts with
    | nil => intro acc _; simp
    | cons t ts ih =>
      intro acc h
      have ht := h t (by simp)
      rw [List.map_cons, List.foldlM_cons]
      simp only [hby t ht, hentry _ _ (hsub t ht), Option.map_some, Option.bind_eq_bind, Option.bind_some]
      rw [ih _ (fun y hy => h y (by simp [hy]))]
      simp
  refine ⟨_, main m.structs [] (fun _ h => h), by simp only [List.nil_append, List.map_map]; exact List.map_id _, fun e he x => ?_⟩
  simp only [List.nil_append, List.mem_map] at he
  obtain ⟨t, ht, rfl⟩ := he
  simp only
  have hself := (C44_struct_subtypes_partial m hd t t).1.2 ⟨ht, .refl t⟩
  have hr : sSubTypes m t = reachable m t := by rw [sSubTypes, if_pos ht]
  rw [hr] at hself ⊢
  rw [List.mem_cons]
  exact ⟨fun h => h.elim (fun h => h ▸ hself) id, Or.inr⟩

/-- C44: what a type name refers to when a hierarchy is read: the first composite type with that identifier; if there is none,
the composite type with that name provided there is exactly one; a fatal error otherwise. -/
theorem C44_lookup (d : DIF) (nt : NameTab) (s : List Char) (l : List Nat) :
    findComposite d nt s l none false =
      match l.find? (fun a => (d.comp a).isSome && decide (nt.ident a = s)) with
      | some a => some a
      | none => match l.filter (fun a => (d.comp a).isSome && decide (nt.name a = s)) with
        | [a] => some a
        | _ => none := by
  have key : ∀ (l : List Nat) (bn : Option Nat) (u : Bool) , findComposite d nt s l bn u =
      match l.find? (fun a => (d.comp a).isSome && decide (nt.ident a = s)) with
      | some a => some a
      | none => match l.filter (fun a => (d.comp a).isSome && decide (nt.name a = s)) with
        | [] => if u then bn else none
        | [a] => if bn.isNone then some a else none
        | _ => none := by
    intro l
    induction l with
    | nil => intro bn u; rfl
    | cons x l ih =>
      intro bn u
      unfold findComposite
      cases hc : d.comp x with
      | none => simp only [ih, List.find?_cons, List.filter_cons, hc, Option.isSome_none, Bool.false_and]; rfl
      | some c =>
        by_cases h1 : nt.ident x = s
        · simp [h1, hc]
        · by_cases h2 : nt.name x = s
          · simp only [if_neg h1, if_pos h2, ih, List.find?_cons, List.filter_cons, hc, Option.isSome_some, Bool.true_and,
              decide_eq_false h1, decide_eq_true h2, if_true]
            cases l.find? (fun a => (d.comp a).isSome && decide (nt.ident a = s)) with
            | some a => rfl
            | none =>
              cases l.filter (fun a => (d.comp a).isSome && decide (nt.name a = s)) with
              | nil => rfl
              | cons y ys => cases ys <;> simp
          · simp only [if_neg h1, if_neg h2, ih, List.find?_cons, List.filter_cons, hc, Option.isSome_some, Bool.true_and,
              decide_eq_false h1, decide_eq_false h2]
            rfl
  rw [key]
  split
  · rfl
  · cases hl : l.filter (fun a => (d.comp a).isSome && decide (nt.name a = s)) with
    | nil => rfl
    | cons y ys => cases ys <;> rfl

/-- Two types of that name: an error; one of them has it as identifier: that one. -/
example :
    let d : DIF := ⟨[0, 1], fun a => if a < 2 then some ⟨.class_, []⟩ else none⟩
    findComposite d ⟨fun _ => [], fun _ => ['A'], fun _ => []⟩ ['A'] [0, 1] none false = none ∧
    findComposite d ⟨fun a => if a = 1 then ['A'] else [], fun _ => ['A'], fun _ => []⟩ ['A'] [0, 1] none false = some 1 := by
  decide

theorem C44.findComposite_ident {d : DIF} {nt : NameTab} {a : Nat} (hc : ∃ c, d.comp a = some c) :
    ∀ (l : List Nat) (bn : Option Nat) (u : Bool), a ∈ l →
      (∀ x ∈ l, ∀ c, d.comp x = some c → nt.ident x = nt.ident a → x = a) →
      findComposite d nt (nt.ident a) l bn u = some a := by
  intro l
  induction l with
  | nil => intro _ _ h; cases h
  | cons x l ih =>
    intro bn u ha hu
    have next : ∀ bn u, x ≠ a → findComposite d nt (nt.ident a) l bn u = some a := by
      intro bn u hx
      apply ih bn u
      · rcases List.mem_cons.1 ha with h | h
        · exact absurd h.symm hx
        · exact h
      · exact fun y hy => hu y (by simp [hy])
    unfold findComposite
    cases hcx : d.comp x with
    | none =>
      apply next
      rintro rfl
      obtain ⟨c, hc⟩ := hc
      rw [hcx] at hc
      cases hc
    | some c =>
      simp only
      by_cases h1 : nt.ident x = nt.ident a
      · rw [if_pos h1, hu x (by simp) c hcx h1]
      · have hx : x ≠ a := fun h => h1 (by rw [h])
        rw [if_neg h1]
        split
        · exact next _ _ hx
        · exact next _ _ hx

theorem C44.findComposite_name {d : DIF} {nt : NameTab} {a : Nat} (hc : ∃ c, d.comp a = some c) :
    ∀ (l : List Nat), (∀ x ∈ l, ∀ c, d.comp x = some c → nt.ident x ≠ nt.name a ∧ (nt.name x = nt.name a → x = a)) →
      l.Nodup → (a ∉ l → ∀ bn u, findComposite d nt (nt.name a) l bn u = if u then bn else none) ∧
      (a ∈ l → findComposite d nt (nt.name a) l none false = some a) := by
  intro l
  induction l with
  | nil => intro _ _; exact ⟨fun _ bn u => rfl, fun h => by cases h⟩
  | cons x l ih =>
    intro hu hn
    obtain ⟨ih1, ih2⟩ := ih (fun y hy => hu y (by simp [hy])) (List.nodup_cons.1 hn).2
    have hxl := (List.nodup_cons.1 hn).1
    constructor
    · intro ha bn u
      rw [List.mem_cons, not_or] at ha
      unfold findComposite
      cases hcx : d.comp x with
      | none => exact ih1 ha.2 bn u
      | some c =>
        obtain ⟨h1, h2⟩ := hu x (by simp) c hcx
        simp only
        rw [if_neg h1, if_neg (fun h => ha.1 (h2 h).symm)]
        exact ih1 ha.2 bn u
    · intro ha
      unfold findComposite
      by_cases hxa : x = a
      · subst hxa
        obtain ⟨c, hc⟩ := hc
        obtain ⟨h1, h2⟩ := hu x (by simp) c hc
        simp only [hc]
        rw [if_neg h1, if_pos trivial, ih1 hxl]
        rfl
      · have hal : a ∈ l := (List.mem_cons.1 ha).resolve_left (fun h => hxa h.symm)
        cases hcx : d.comp x with
        | none => exact ih2 hal
        | some c =>
          obtain ⟨h1, h2⟩ := hu x (by simp) c hcx
          simp only
          rw [if_neg h1, if_neg (fun h => hxa (h2 h))]
          exact ih2 hal

theorem C44.mapM_id {α β : Type} (f : β → Option α) (g : α → β) : ∀ l : List α, (∀ x ∈ l, f (g x) = some x) →
    (l.map g).mapM f = some l := by
  intro l
  induction l with
  | nil => intro _; rfl
  | cons x l ih =>
    intro h
    rw [List.map_cons, List.mapM_cons, h x (by simp), ih (fun y hy => h y (by simp [hy]))]
    rfl

/-- Reading the serialized debug-information hierarchy back gives the same hierarchy and virtual tables, provided that
identifiers (or names where there is none) are distinct, that plain names are distinct as well (see
`C44_roundtrip_names_false`) and that the virtual tables have no gaps (see `C44_roundtrip_null_false`). -/
theorem C44_roundtrip_partial (d : DIF) (nt : NameTab) (getFn : List Char → Option Nat) (th : TypeH)
    (vt : List (List (Option Nat))) (hnd : d.types.Nodup)
    (hv : ∀ a ∈ th.verts, a ∈ d.types ∧ ∃ c, d.comp a = some c)
    (hi : ∀ a ∈ th.verts, nt.ident a ≠ [] → ∀ x ∈ d.types, ∀ c, d.comp x = some c → nt.ident x = nt.ident a → x = a)
    (hna : ∀ a ∈ th.verts, nt.ident a = [] → ∀ x ∈ d.types, ∀ c, d.comp x = some c →
      nt.ident x ≠ nt.name a ∧ (nt.name x = nt.name a → x = a))
    (hh : ∀ a ∈ th.hier, a ∈ d.types ∧ ∀ x ∈ d.types, nt.name x = nt.name a → x = a)
    (hf : ∀ t ∈ vt, ∀ f ∈ t, ∃ g, f = some g ∧ nt.fn g ≠ nullFunName ∧ getFn (nt.fn g) = some g) :
    deserialize d nt getFn (serialize nt th vt) = some (th, vt) := by
  unfold deserialize
  have h1 : (th.verts.map (typeName nt)).mapM (fun s => findComposite d nt s d.types none false) = some th.verts := by
    apply C44.mapM_id
    intro a ha
    unfold typeName
    by_cases h : nt.ident a = []
    · rw [if_pos h]
      exact (C44.findComposite_name (hv a ha).2 d.types (hna a ha h) hnd).2 (hv a ha).1
    · rw [if_neg h]
      exact C44.findComposite_ident (hv a ha).2 d.types none false (hv a ha).1 (hi a ha h)
  have h2 : (th.hier.map nt.name).mapM (findType d nt) = some th.hier := by
    apply C44.mapM_id
    intro a ha
    unfold findType
    cases hfd : d.types.find? fun x => decide (nt.name x = nt.name a) with
    | none =>
      have := List.find?_eq_none.1 hfd a (hh a ha).1
      simp at this
    | some x =>
      have hx := List.find?_some hfd
      rw [decide_eq_true_eq] at hx
      rw [(hh a ha).2 x (List.mem_of_find?_eq_some hfd) hx]
  have h3 : (serialize nt th vt).vtables.map (loadVTable getFn) = vt := by
    unfold serialize
    rw [List.map_map]
    conv => rhs; rw [← List.map_id vt]
    apply List.map_congr_left
    intro t ht
    have := hf t ht
    clear ht
    simp only [Function.comp, id, loadVTable]
    induction t with
    | nil => rfl
    | cons f t ih =>
      obtain ⟨g, rfl, hg1, hg2⟩ := this f (by simp)
      rw [List.map_cons, List.flatMap_cons, ih (fun f hf => this f (by simp [hf]))]
      simp only [if_neg hg1, hg2]
      rfl
  have h1' : (serialize nt th vt).verts = th.verts.map (typeName nt) := rfl
  have h2' : (serialize nt th vt).hier = th.hier.map nt.name := rfl
  rw [h1', h1, h2', h2, h3]
  rfl

/-! ## What is false -/

/-- With opaque pointers the type infos refer to their bases without a cast; then no inheritance is found. -/
theorem C44_struct_opaque_false : ∃ m : SMod, Distinct m ∧ m.structs = [0, 1] ∧
    (∃ ti ∈ m.tis, ti.clear = clearName (m.name 1) ∧ ti.init = some [.other, .direct (clearName (m.name 0))]) ∧
    sIsSubType m 0 1 = false := by
  refine ⟨⟨[0, 1], fun t => if t = 0 then "class.A".toList else "class.B".toList,
    [⟨['B'], some [.other, .direct ['A']]⟩]⟩, ⟨by decide, by decide⟩, rfl, ⟨_, List.mem_singleton.2 rfl, by decide, by decide⟩,
    by decide⟩

/-- Two struct types whose names differ only in the prefix: the derived type is only found below the later one. -/
theorem C44_struct_clash_false : ∃ m : SMod, m.structs = [0, 1, 2] ∧ m.name 0 = "class.A".toList ∧
    m.name 1 = "struct.A".toList ∧ m.name 2 = "class.B".toList ∧ m.tis = [⟨['B'], some [.other, .bitcast ['A']]⟩] ∧
    sIsSubType m 1 2 = true ∧ sIsSubType m 0 2 = false :=
  ⟨⟨[0, 1, 2], fun t => if t = 0 then "class.A".toList else if t = 1 then "struct.A".toList else "class.B".toList,
    [⟨['B'], some [.other, .bitcast ['A']]⟩]⟩, rfl, rfl, rfl, rfl, rfl, by decide, by decide⟩

/-- Reading a hierarchy back throws if a subtype does not exist in the module, although the code means to skip it. -/
theorem C44_struct_load_false : ∃ m : SMod, m.structs = [0] ∧ m.name 0 = ['A'] ∧
    sLoad m [(['A'], [['A'], ['B']])] = none ∧ sLoad m [(['B'], [['B']])] = some [] :=
  ⟨⟨[0], fun _ => ['A'], []⟩, rfl, rfl, by decide, by decide⟩

/-- Types with equal names in different namespaces (identifiers differ) are confused when a hierarchy is read back: the second
`A` is its own only subtype before, and has the first `A` as only subtype after. -/
theorem C44_roundtrip_names_false :
    let d : DIF := ⟨[0, 1], fun a => if a < 2 then some ⟨.class_, []⟩ else none⟩
    let nt : NameTab := ⟨fun a => if a = 0 then "_ZTS1A".toList else "_ZTSN1n1AE".toList, fun _ => ['A'], fun _ => []⟩
    (construct 10 d).bind (fun th => subTypesOf th 1) = some [1] ∧
    (construct 10 d).bind (fun th => (deserialize d nt (fun _ => none) (serialize nt th [])).bind fun r => subTypesOf r.1 1) =
      some [0] := by
  decide +kernel

/-- A null entry of a virtual table becomes two when it is read back, which moves all later functions. -/
theorem C44_roundtrip_null_false :
    let nt : NameTab := ⟨fun _ => [], fun _ => [], fun _ => ['f']⟩
    let getFn : List Char → Option Nat := fun n => if n = ['f'] then some 5 else none
    deserialize ⟨[], fun _ => none⟩ nt getFn (serialize nt ⟨[], [], []⟩ [[none, some 5]]) =
      some (⟨[], [], []⟩, [[none, none, some 5]]) := by
  decide +kernel

/-! ## Non-vacuity -/

/-- `B : A`, `C : B`, `D : A`. -/
def C44.smod : SMod where
  structs := [0, 1, 2, 3]
  name t := match t with
    | 0 => "class.A".toList
    | 1 => "struct.B".toList
    | 2 => "class.C".toList
    | _ => "class.D".toList
  tis := [⟨['A'], some [.other]⟩, ⟨['C'], some [.other, .bitcast ['B']]⟩, ⟨['B'], some [.other, .bitcast ['A']]⟩,
    ⟨['D'], some [.other, .bitcast ['A']]⟩, ⟨['E'], none⟩]

example : Distinct C44.smod := ⟨by decide, by decide⟩
example : (sSubTypes C44.smod 0, sSubTypes C44.smod 1, sSubTypes C44.smod 3, sSubTypes C44.smod 4) =
    ([3, 2, 1, 0], [2, 1], [3], []) := by decide
example : sLoad C44.smod (sData C44.smod) = some [(0, [0, 3, 2, 1, 0]), (1, [1, 2, 1]), (2, [2, 2]), (3, [3, 3])] := by decide

example :
    let d : DIF := ⟨[0, 1], fun a => if a < 2 then some ⟨.class_, []⟩ else none⟩
    let nt : NameTab := ⟨fun a => if a = 0 then "_ZTS1A".toList else [], fun a => if a = 0 then ['A'] else ['B'], fun _ => ['f']⟩
    deserialize d nt (fun _ => some 7) (serialize nt ⟨[0, 1], [(0, 1), (1, 2)], [0, 1]⟩ [[some 7], []]) =
      some (⟨[0, 1], [(0, 1), (1, 2)], [0, 1]⟩, [[some 7], []]) :=
  C44_roundtrip_partial _ _ _ _ _ (by decide)
    (by intro a ha; simp at ha; rcases ha with rfl | rfl <;> exact ⟨by decide, _, rfl⟩)
    (by
      intro a ha _ x hx c _
      simp only [List.mem_cons, List.not_mem_nil, or_false] at ha hx
      rcases ha with rfl | rfl <;> rcases hx with rfl | rfl <;> simp_all)
    (by
      intro a ha _ x hx c _
      simp only [List.mem_cons, List.not_mem_nil, or_false] at ha hx
      rcases ha with rfl | rfl <;> rcases hx with rfl | rfl <;> simp_all)
    (by decide)
    (by
      intro t ht f hf
      simp at ht
      rcases ht with rfl | rfl
      · simp at hf; exact ⟨7, hf, by decide, rfl⟩
      · cases hf)

end Phasar.TH
