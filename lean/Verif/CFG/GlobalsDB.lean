import Verif.CFG.GlobalsTotal
import Verif.DB.IRDBLemmas
/-! # The generated functions in the database -/
namespace Phasar.Globals

open Phasar.StringID (Str ascii)
open Phasar.DB (IRDB Val visit tryEmplace insertFunction toStr DInv)

theorem view_insts (g : GFn) : (view g).insts = g.instIds.map Val.inst := by
  unfold view DB.Fun.insts GFn.instIds
  simp [List.map_flatten]

theorem visit_len (pre : Bool) (vs : List Val) : ∀ p : IRDB × Nat,
    (vs.foldl (visit pre) p).1.idToInst.length = p.1.idToInst.length + vs.length ∧
    (vs.foldl (visit pre) p).1.instToId.length ≤ p.1.instToId.length + vs.length ∧
    (∀ v, (p.1.instToId.lookup v).isSome → ((vs.foldl (visit pre) p).1.instToId.lookup v).isSome) ∧
    ((∃ v ∈ vs, (p.1.instToId.lookup v).isSome) → (vs.foldl (visit pre) p).1.instToId.length < p.1.instToId.length + vs.length) := by
  induction vs with
  | nil => intro p; simp
  | cons w vs ih =>
    intro p
    obtain ⟨h1, h2, h3, h4⟩ := ih (visit pre p w)
    have e1 : (visit pre p w).1.idToInst.length = p.1.idToInst.length + 1 := by simp [visit]
    have e2 : (visit pre p w).1.instToId.length ≤ p.1.instToId.length + 1 := by
      simp only [visit, tryEmplace]; split <;> simp
    have e3 : ∀ v, (p.1.instToId.lookup v).isSome → ((visit pre p w).1.instToId.lookup v).isSome := by
      intro v hv
      simp only [visit, tryEmplace]
      split
      · exact hv
      · rw [List.lookup_append]
        cases hl : List.lookup v p.1.instToId with
        | none => rw [hl] at hv; cases hv
        | some k => rfl
    simp only [List.foldl_cons, List.length_cons]
    refine ⟨by omega, by omega, fun v hv => h3 v (e3 v hv), ?_⟩
    rintro ⟨v, hv, hs⟩
    rcases List.mem_cons.1 hv with rfl | hv
    · have : (visit pre p v).1.instToId.length = p.1.instToId.length := by
        simp only [visit, tryEmplace]; rw [if_pos hs]
      omega
    · have := h4 ⟨v, hv, e3 v hs⟩
      omega

theorem insert_twice {db : IRDB} {f : DB.Fun} {pre : Bool} (hl : db.instToId.length ≤ db.idToInst.length) {v : Val} (hv : v ∈ f.insts)
    (hs : (db.instToId.lookup v).isSome) : insertFunction db f pre = none := by
  unfold insertFunction
  split
  · obtain ⟨h1, h2, h3, h4⟩ := visit_len pre f.insts (db, db.idToInst.length)
    have := h4 ⟨v, hv, hs⟩
    simp only at h1 this ⊢
    rw [if_neg (by omega)]
  · rfl

theorem insert_keep {db db' : IRDB} {f : DB.Fun} {pre : Bool} (h : insertFunction db f pre = some db') :
    db'.instToId.length = db'.idToInst.length ∧ (∀ v, (db.instToId.lookup v).isSome → (db'.instToId.lookup v).isSome) := by
  unfold insertFunction at h
  split at h
  · obtain ⟨h1, h2, h3, h4⟩ := visit_len pre f.insts (db, db.idToInst.length)
    dsimp only at h
    split at h
    · rename_i he
      injection h with h
      subst h
      exact ⟨he, h3⟩
    · cases h
  · cases h

theorem insertInto_twice {m : GMod} {fs : List Nat} {f : Nat} {g : GFn} (hg : fnOf m f = some g) {v : Val} (hv : v ∈ (view g).insts) :
    ∀ {db : IRDB}, db.instToId.length ≤ db.idToInst.length → (db.instToId.lookup v).isSome → (fs ++ [f]).foldlM (insertInto m) db = none := by
  induction fs with
  | nil =>
    intro db hl hs
    rw [List.nil_append, List.foldlM_cons]
    have : insertInto m db f = none := by
      unfold insertInto
      rw [hg, Option.bind_some]
      exact insert_twice hl hv hs
    rw [this]; rfl
  | cons x fs ih =>
    intro db hl hs
    rw [List.cons_append, List.foldlM_cons]
    cases hx : insertInto m db x with
    | none => rfl
    | some db' =>
      unfold insertInto at hx
      obtain ⟨gx, _, hx⟩ := Option.bind_eq_some_iff.1 hx
      obtain ⟨k1, k2⟩ := insert_keep hx
      exact ih (Nat.le_of_eq k1) (k2 v hs)

/-- The instructions of a function of the module. -/
def instsOf (m : GMod) (f : Nat) : List Val := ((fnOf m f).map (fun g => (view g).insts)).getD []

theorem insertInto_ok {m : GMod} (fs : List Nat) : (∀ f ∈ fs, ∃ g, fnOf m f = some g) → ∀ (db : IRDB) (xs : List Val), db.idToInst = xs →
    db.instToId = xs.zipIdx → (xs ++ (fs.map (instsOf m)).flatten).Nodup →
    ∃ db', fs.foldlM (insertInto m) db = some db' ∧ db'.idToInst = xs ++ (fs.map (instsOf m)).flatten ∧
      db'.instToId = (xs ++ (fs.map (instsOf m)).flatten).zipIdx ∧
      (∀ k v, (fs.map (instsOf m)).flatten[k]? = some v → db'.md v = some (toStr (xs.length + k))) ∧
      (∀ v, v ∉ (fs.map (instsOf m)).flatten → db'.md v = db.md v) := by
  induction fs with
  | nil => intro _ db xs h1 h2 _; exact ⟨db, rfl, by simpa using h1, by simpa using h2, fun k v h => by simp at h, fun _ _ => rfl⟩
  | cons f fs ih =>
    intro hfs db xs h1 h2 hn
    obtain ⟨g, hg⟩ := hfs f List.mem_cons_self
    have hi : instsOf m f = (view g).insts := by unfold instsOf; rw [hg]; rfl
    rw [List.map_cons, List.flatten_cons, ← List.append_assoc] at hn
    have hn1 : (xs ++ (view g).insts).Nodup := by rw [← hi]; exact (List.nodup_append.1 hn).1
    obtain ⟨b, bl⟩ := DB.visit_all true (view g).insts xs (sync db m) h1 h2 hn1
    have hins : insertInto m db f = some ((view g).insts.foldl (visit true) (sync db m, xs.length)).1 := by
      unfold insertInto
      rw [hg, Option.bind_some]
      unfold insertFunction
      have hm : view g ∈ (sync db m).mod.funs := List.mem_map_of_mem (List.mem_of_find?_eq_some hg)
      have e : (sync db m).idToInst.length = xs.length := by rw [← h1]; rfl
      rw [if_pos hm, e]
      dsimp only
      rw [if_pos (by rw [b.ids, b.map]; simp)]
    obtain ⟨db', k1, k2, k3, k4, k5⟩ := ih (fun x hx => hfs x (List.mem_cons_of_mem _ hx)) _ (xs ++ instsOf m f)
      (by rw [b.ids, hi]) (by rw [b.map, hi]) hn
    refine ⟨db', by rw [List.foldlM_cons, hins]; exact k1, by simpa using k2, by simpa using k3, ?_, ?_⟩
    · intro k v hk
      rw [List.map_cons, List.flatten_cons] at hk
      rcases Nat.lt_or_ge k (instsOf m f).length with hlt | hge
      · rw [List.getElem?_append_left hlt] at hk
        have hnot : v ∉ (fs.map (instsOf m)).flatten := fun hm =>
          (List.nodup_append.1 hn).2.2 v (List.mem_append_right _ (List.mem_of_getElem? hk)) v hm rfl
        rw [k5 v hnot]
        rw [hi] at hk
        exact b.md rfl k v hk
      · rw [List.getElem?_append_right hge] at hk
        rw [k4 _ v hk, List.length_append]
        congr 2; omega
    · intro v hv
      rw [List.map_cons, List.flatten_cons, List.mem_append, not_or] at hv
      rw [k5 v hv.2, b.keep v (.inl (by rw [← hi]; exact hv.1))]
      rfl

/-- The instructions of the generated functions are new and different. -/
theorem first_nodup {lossless : Nat → Nat → Bool} {m : GMod} {es : List Nat} {b : Built} {sel c : Nat} (hf : First lossless m es b sel c)
    {xs : List Val} (hx : xs.Nodup) (hb : ∀ n, Val.inst n ∈ xs → n < m.next) :
    (xs ++ (b.inserted.map (instsOf b.mod)).flatten).Nodup := by
  have hbig : ∀ f ∈ b.inserted, ∀ v ∈ instsOf b.mod f, ∃ n, v = .inst n ∧ m.next ≤ n ∧ ∃ g, fnOf b.mod f = some g ∧ n ∈ g.instIds := by
    intro f hfi v hv
    obtain ⟨g, hg⟩ := hf.mem f hfi
    unfold instsOf at hv
    rw [hg, Option.map_some, Option.getD_some, view_insts] at hv
    obtain ⟨n, hn, rfl⟩ := List.mem_map.1 hv
    refine ⟨n, rfl, hf.apart.big g (List.mem_of_find?_eq_some hg) ?_ n hn, g, hg, hn⟩
    rw [fnOf_id hg]
    exact hf.shape.big f hfi
  rw [List.nodup_append]
  refine ⟨hx, ?_, ?_⟩
  · have key : ∀ (fs : List Nat), (∀ f ∈ fs, f ∈ b.inserted) → fs.Nodup → ((fs.map (instsOf b.mod)).flatten).Nodup := by
      intro fs
      induction fs with
      | nil => intro _ _; exact List.nodup_nil
      | cons f fs ih =>
        intro hfs hnd
        rw [List.map_cons, List.flatten_cons, List.nodup_append]
        have hnd' := List.nodup_cons.1 hnd
        refine ⟨?_, ih (fun x hx => hfs x (List.mem_cons_of_mem _ hx)) hnd'.2, ?_⟩
        · obtain ⟨g, hg⟩ := hf.mem f (hfs f List.mem_cons_self)
          unfold instsOf
          rw [hg, Option.map_some, Option.getD_some, view_insts]
          have := hf.apart.nodup g (List.mem_of_find?_eq_some hg) (by rw [fnOf_id hg]; exact hf.shape.big f (hfs f List.mem_cons_self))
          exact List.Pairwise.map _ (fun a b h e => h (by injection e)) this
        · intro v hv w hw e
          subst e
          obtain ⟨l, hl, hw⟩ := List.mem_flatten.1 hw
          obtain ⟨f', hf', rfl⟩ := List.mem_map.1 hl
          obtain ⟨n, rfl, _, g, hg, hn⟩ := hbig f (hfs f List.mem_cons_self) v hv
          obtain ⟨n', e', _, g', hg', hn'⟩ := hbig f' (hfs f' (List.mem_cons_of_mem _ hf')) _ hw
          injection e' with e'
          subst e'
          have hne : f ≠ f' := fun e => hnd'.1 (e ▸ hf')
          refine hf.apart.apart g (List.mem_of_find?_eq_some hg) g' (List.mem_of_find?_eq_some hg') ?_ ?_ ?_ n hn hn'
          · rw [fnOf_id hg]; exact hf.shape.big f (hfs f List.mem_cons_self)
          · rw [fnOf_id hg']; exact hf.shape.big f' (hfs f' (List.mem_cons_of_mem _ hf'))
          · rw [fnOf_id hg, fnOf_id hg']; exact hne
    exact key b.inserted (fun _ h => h) hf.nodup
  · intro v hv w hw e
    subst e
    obtain ⟨l, hl, hw⟩ := List.mem_flatten.1 hw
    obtain ⟨f, hfi, rfl⟩ := List.mem_map.1 hl
    obtain ⟨n, rfl, hn, _⟩ := hbig f hfi v hw
    have := hb n hv
    omega

/-- The instructions in a database of the module are below `next`. -/
theorem db_below {m : GMod} (hb : Below m) {db : IRDB} {P : List Val} (hd : DInv db P) (hm : db.mod.funs = m.fns.map view) :
    ∀ n, Val.inst n ∈ db.idToInst → n < m.next := by
  intro n hn
  rw [hd.ids, DB.Module.values, List.mem_append] at hn
  rcases hn with hn | hn
  · obtain ⟨k, _, e⟩ := List.mem_map.1 hn; cases e
  · obtain ⟨l, hl, hn⟩ := List.mem_flatten.1 hn
    obtain ⟨f, hf, rfl⟩ := List.mem_map.1 hl
    rw [hm] at hf
    obtain ⟨g, hg, rfl⟩ := List.mem_map.1 hf
    rw [view_insts] at hn
    obtain ⟨k, hk, e⟩ := List.mem_map.1 hn
    injection e with e
    subst e
    unfold GFn.instIds at hk
    obtain ⟨p, hp, rfl⟩ := List.mem_map.1 hk
    obtain ⟨b, hb', hp⟩ := List.mem_flatten.1 hp
    exact hb.insts g hg b hb' p hp

end Phasar.Globals
