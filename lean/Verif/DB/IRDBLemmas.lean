import Verif.DB.IRDB
import Verif.Util.StringIDProps
/-! # Lemmas about the numbering of the values and the strings of the ids -/
namespace Phasar.DB

open Phasar Phasar.StringID

theorem decAux_eq (fuel : Nat) : ∀ n, n < fuel → decAux fuel n = C48.decimal n := by
  induction fuel with
  | zero => intro n h; omega
  | succ k ih =>
    intro n h
    rw [decAux, C48.decimal]
    split
    · rfl
    · rw [ih (n / 10) (by omega)]

theorem toStr_eq (n : Nat) : toStr n = C48.decimal n := decAux_eq _ _ (Nat.lt_succ_self n)

theorem toStr_digit (n : Nat) : ∀ c ∈ toStr n, isDigit c = true := by rw [toStr_eq]; exact C48.decimal_digit n

theorem toStr_ne_nil (n : Nat) : toStr n ≠ [] := by rw [toStr_eq]; exact C48.decimal_ne_nil n

theorem toStr_value (n : Nat) : value 0 (toStr n) = n := by rw [toStr_eq]; exact C48.value_decimal n

theorem toStr_inj {m n : Nat} (h : toStr m = toStr n) : m = n := by rw [← toStr_value m, h, toStr_value]

theorem digits_toStr (n : Nat) (rest : Str) (hr : ∀ c cs, rest = c :: cs → isDigit c = false) :
    digits (toStr n ++ rest) = toStr n := by
  have hrest : digits rest = [] := by
    cases rest with
    | nil => rfl
    | cons c cs => simp [digits, hr c cs rfl]
  rw [C48.digits_append _ (toStr_digit n), hrest, List.append_nil]

/-- `from_chars` reads the number at the start. -/
theorem parseInt_toStr (n : Nat) (hn : n < 4294967296) (rest : Str) (hr : ∀ c cs, rest = c :: cs → isDigit c = false) :
    parseInt (toStr n ++ rest) = some n := by
  have h1 := digits_toStr n rest hr
  have h2 := toStr_ne_nil n
  have h3 := toStr_value n
  unfold parseInt
  rw [h1]
  cases h : toStr n with
  | nil => exact absurd h h2
  | cons d ds => rw [h] at h3; simp only [h3]; rw [if_pos hn]

theorem parseInt_large (n : Nat) (hn : 4294967296 ≤ n) : parseInt (toStr n) = none := by
  have h1 := digits_toStr n [] (fun _ _ h => by cases h)
  rw [List.append_nil] at h1
  have h2 := toStr_ne_nil n
  have h3 := toStr_value n
  unfold parseInt
  rw [h1]
  cases h : toStr n with
  | nil => exact absurd h h2
  | cons d ds => rw [h] at h3; simp only [h3]; rw [if_neg (by omega)]

theorem splitDot_none {s : Str} (h : 46 ∉ s) : splitDot s = none := by
  induction s with
  | nil => rfl
  | cons c cs ih =>
    rw [List.mem_cons, not_or] at h
    rw [splitDot, if_neg (fun e => h.1 e.symm), ih h.2]; rfl

theorem splitDot_append {s : Str} (h : 46 ∉ s) (r : Str) : splitDot (s ++ 46 :: r) = some (s, r) := by
  induction s with
  | nil => rw [List.nil_append, splitDot, if_pos rfl]
  | cons c cs ih =>
    rw [List.mem_cons, not_or] at h
    rw [List.cons_append, splitDot, if_neg (fun e => h.1 e.symm), ih h.2]; rfl

theorem toStr_no_dot (n : Nat) : 46 ∉ toStr n := fun h => by
  have := toStr_digit n 46 h
  simp [isDigit] at this

theorem toStr_head (n : Nat) : ∃ c cs, toStr n = c :: cs ∧ isDigit c = true := by
  cases h : toStr n with
  | nil => exact absurd h (toStr_ne_nil n)
  | cons c cs => exact ⟨c, cs, rfl, toStr_digit n c (by rw [h]; exact List.mem_cons_self)⟩

theorem fromMetaDataId_number (db : IRDB) (k : Nat) (hk : k < 4294967296) :
    fromMetaDataId db (toStr k) = getValueFromId db k := by
  obtain ⟨c, cs, h1, h2⟩ := toStr_head k
  have h3 : c ≠ 45 := fun e => by subst e; simp [isDigit] at h2
  have h4 := splitDot_none (toStr_no_dot k)
  have h5 := parseInt_toStr k hk [] (fun _ _ h => by cases h)
  rw [List.append_nil] at h5
  unfold fromMetaDataId
  rw [h1] at h4 h5 ⊢
  simp only [if_neg h3, h4, h5]

theorem lookup_zipIdx {vs : List Val} (hn : vs.Nodup) (v : Val) : ∀ (s k : Nat),
    (vs.zipIdx s).lookup v = some k ↔ s ≤ k ∧ vs[k - s]? = some v := by
  induction vs with
  | nil => intro s k; simp
  | cons w vs ih =>
    intro s k
    rw [List.nodup_cons] at hn
    rw [List.zipIdx_cons, List.lookup_cons]
    by_cases e : v = w
    · subst e
      rw [beq_self_eq_true]
      constructor
      · intro h; injection h with h; subst h; simp
      · rintro ⟨h1, h2⟩
        by_cases hk : k = s
        · rw [hk]
        · rw [show k - s = (k - s - 1) + 1 by omega, List.getElem?_cons_succ] at h2
          exact absurd (List.mem_of_getElem? h2) hn.1
    · rw [show (v == w) = false by simp [e]]
      dsimp only
      rw [ih hn.2 (s + 1) k]
      constructor
      · rintro ⟨h1, h2⟩
        refine ⟨by omega, ?_⟩
        rw [show k - s = (k - (s + 1)) + 1 by omega, List.getElem?_cons_succ]; exact h2
      · rintro ⟨h1, h2⟩
        by_cases hk : k = s
        · subst hk; simp at h2; exact absurd h2.symm e
        · rw [show k - s = (k - (s + 1)) + 1 by omega, List.getElem?_cons_succ] at h2
          exact ⟨by omega, h2⟩

theorem lookup_none {vs : List Val} {v : Val} (h : v ∉ vs) : ∀ s, (vs.zipIdx s).lookup v = none := by
  induction vs with
  | nil => intro s; rfl
  | cons w vs ih =>
    intro s
    rw [List.mem_cons, not_or] at h
    rw [List.zipIdx_cons, List.lookup_cons, show (v == w) = false by simp [h.1]]
    exact ih h.2 _

/-- What numbering the values `vs` after the values `xs` does. -/
structure Numbered (pre : Bool) (db db' : IRDB) (xs vs : List Val) : Prop where
  mod : db'.mod = db.mod
  offset : db'.offset = db.offset
  ids : db'.idToInst = xs ++ vs
  map : db'.instToId = (xs ++ vs).zipIdx
  keep : ∀ w, w ∉ vs ∨ pre = false → db'.md w = db.md w
  md : pre = true → ∀ k w, vs[k]? = some w → db'.md w = some (toStr (xs.length + k))

theorem visit_all (pre : Bool) : ∀ (vs xs : List Val) (db : IRDB), db.idToInst = xs → db.instToId = xs.zipIdx → (xs ++ vs).Nodup →
    Numbered pre db (vs.foldl (visit pre) (db, xs.length)).1 xs vs ∧
      (vs.foldl (visit pre) (db, xs.length)).2 = xs.length + vs.length := by
  intro vs
  induction vs with
  | nil => intro xs db h1 h2 _; exact ⟨⟨rfl, rfl, by simpa using h1, by simpa using h2, fun _ _ => rfl, fun _ k w h => by simp at h⟩, rfl⟩
  | cons v vs ih =>
    intro xs db h1 h2 hn
    have hv : v ∉ xs := fun hm => by
      rw [List.nodup_append] at hn
      exact hn.2.2 v hm v List.mem_cons_self rfl
    have hv' : v ∉ vs := by
      rw [List.nodup_append] at hn
      exact (List.nodup_cons.1 hn.2.1).1
    have he : visit pre (db, xs.length) v = ((visit pre (db, xs.length) v).1, (xs ++ [v]).length) := by
      simp [visit]
    have hi : (visit pre (db, xs.length) v).1.idToInst = xs ++ [v] := by simp [visit, h1]
    have hm : (visit pre (db, xs.length) v).1.instToId = (xs ++ [v]).zipIdx := by
      simp only [visit, tryEmplace, h2]
      rw [lookup_none hv 0]
      simp [List.zipIdx_append]
    obtain ⟨g, gl⟩ := ih (xs ++ [v]) (visit pre (db, xs.length) v).1 hi hm (by simpa using hn)
    rw [List.foldl_cons, he]
    refine ⟨⟨g.mod, g.offset, by simpa using g.ids, by simpa using g.map, ?_, ?_⟩, by rw [gl]; simp; omega⟩
    · intro w hw
      have hw' : w ∉ vs ∨ pre = false := hw.imp (fun h hm => h (List.mem_cons_of_mem _ hm)) id
      rw [g.keep w hw']
      cases hpre : pre with
      | false => simp [visit]
      | true =>
        rw [hpre] at hw
        have : w ≠ v := fun e => by subst e; simp at hw
        simp [visit, this]
    · intro hpre k w hk
      cases k with
      | zero =>
        simp at hk; subst hk
        rw [g.keep v (.inl hv')]
        simp [visit, hpre]
      | succ k =>
        rw [List.getElem?_cons_succ] at hk
        rw [g.md hpre k w hk, List.length_append, List.length_singleton]
        congr 2; omega

/-- The state of a database in which the values `P` have been given metadata. -/
structure DInv (db : IRDB) (P : List Val) : Prop where
  wf : db.mod.Wf
  ids : db.idToInst = db.mod.values
  map : db.instToId = db.mod.values.zipIdx
  offset : db.offset = db.mod.globals.length
  md : ∀ v ∈ P, ∀ k : Nat, db.mod.values[k]? = some v → db.md v = some (toStr k)
  sub : ∀ v ∈ P, v ∈ db.mod.values

theorem nodup_index {vs : List Val} (hn : vs.Nodup) {v : Val} {i j : Nat} (h1 : vs[i]? = some v) (h2 : vs[j]? = some v) : i = j := by
  have a := (lookup_zipIdx hn v 0 i).2 ⟨Nat.zero_le _, by simpa using h1⟩
  have b := (lookup_zipIdx hn v 0 j).2 ⟨Nat.zero_le _, by simpa using h2⟩
  rw [a] at b; injection b

theorem construct_ok (pre : Bool) (m : Module) (md : Val → Option Str) (hm : m.Wf) :
    ∃ db, construct pre m md = some db ∧ db.mod = m ∧ DInv db (if pre then m.values else []) ∧
      ∀ v, v ∉ m.values ∨ pre = false → db.md v = md v := by
  have hv := hm.vals
  have hg : (([] : List Val) ++ m.globals.map Val.glob).Nodup := by
    unfold Module.values at hv
    rw [List.nodup_append] at hv
    simpa using hv.1
  obtain ⟨a, al⟩ := visit_all pre (m.globals.map Val.glob) [] ⟨m, md, 0, [], []⟩ rfl rfl hg
  simp only [List.length_nil, Nat.zero_add, List.length_map] at a al
  have hc : ((m.globals.map Val.glob).foldl (visit pre) (⟨m, md, 0, [], []⟩, 0)).2 = (m.globals.map Val.glob).length := by
    rw [al]; simp
  generalize hp : (m.globals.map Val.glob).foldl (visit pre) (⟨m, md, 0, [], []⟩, 0) = p at a al hc
  obtain ⟨b, bl⟩ := visit_all pre ((m.funs.map Fun.insts).flatten) (m.globals.map Val.glob) { p.1 with offset := p.2 }
    (by simpa using a.ids) (by simpa using a.map) hv
  refine ⟨((m.funs.map Fun.insts).flatten.foldl (visit pre) ({ p.1 with offset := p.2 }, (m.globals.map Val.glob).length)).1,
    ?_, ?_, ?_, ?_⟩
  · unfold construct number
    simp only [hp]
    rw [hc]
    rw [hc] at b
    rw [if_pos (by rw [b.ids, b.map]; simp)]
  · rw [b.mod]; exact a.mod
  · have hmod := b.mod.trans a.mod
    refine ⟨hmod ▸ hm, by rw [b.ids, hmod]; rfl, by rw [b.map, hmod]; rfl, by rw [b.offset, hmod]; exact al, ?_, ?_⟩
    · intro v hmem k hk
      cases hpre : pre with
      | false => rw [hpre] at hmem; simp at hmem
      | true =>
        rw [hmod] at hk
        unfold Module.values at hk
        rw [List.getElem?_append] at hk
        split at hk
        · rename_i hlt
          have hnm : v ∉ (m.funs.map Fun.insts).flatten := fun hx => by
            unfold Module.values at hv
            rw [List.nodup_append] at hv
            exact hv.2.2 v (List.mem_of_getElem? hk) v hx rfl
          rw [← hpre]
          rw [b.keep v (.inl hnm), a.md hpre k v hk]
          simp
        · rename_i hlt
          rw [← hpre]
          rw [b.md hpre _ v hk]
          dsimp only at hlt ⊢
          congr 2; omega
    · intro v hmem
      rw [hmod]
      cases hpre : pre with
      | false => rw [hpre] at hmem; simp at hmem
      | true => rw [hpre] at hmem; simpa using hmem
  · intro v hvm
    rw [b.keep v (hvm.imp (fun h hx => h (by unfold Module.values; exact List.mem_append_right _ hx)) id)]
    exact a.keep v (hvm.imp (fun h hx => h (by unfold Module.values; exact List.mem_append_left _ hx)) id)

theorem values_addFun (m : Module) (f : Fun) :
    Module.values (m.add [f]) = m.values ++ f.insts := by
  simp [Module.values, Module.add]

theorem insert_ok {db : IRDB} {P : List Val} (h : DInv db P) (f : Fun) (pre : Bool)
    (hw : Module.Wf (db.mod.add [f])) :
    ∃ db', insertFunction (addFun db f) f pre = some db' ∧ db'.mod = (db.mod.add [f]) ∧
      DInv db' (P ++ if pre then f.insts else []) ∧
      (∀ v, v ∉ f.insts ∨ pre = false → db'.md v = db.md v) := by
  have hn := hw.vals
  rw [values_addFun] at hn
  obtain ⟨b, bl⟩ := visit_all pre f.insts db.mod.values (addFun db f) h.ids h.map hn
  refine ⟨(f.insts.foldl (visit pre) (addFun db f, db.mod.values.length)).1, ?_, ?_, ?_, ?_⟩
  · unfold insertFunction
    rw [if_pos (by simp [addFun, Module.add])]
    have e : (addFun db f).idToInst.length = db.mod.values.length := by simp [addFun, h.ids]
    rw [e]
    dsimp only
    rw [if_pos (by rw [b.ids, b.map]; simp)]
  · rw [b.mod]; rfl
  · have hmod : (f.insts.foldl (visit pre) (addFun db f, db.mod.values.length)).1.mod = (db.mod.add [f]) := by
      rw [b.mod]; rfl
    have hval := values_addFun db.mod f
    refine ⟨hmod ▸ hw, by rw [b.ids, hmod, hval], by rw [b.map, hmod, hval], by rw [b.offset, hmod]; exact h.offset, ?_, ?_⟩
    · intro v hmem k hk
      rw [hmod, hval, List.getElem?_append] at hk
      split at hk
      · have hnm : v ∉ f.insts := fun hx => by
          rw [List.nodup_append] at hn
          exact hn.2.2 v (List.mem_of_getElem? hk) v hx rfl
        rw [b.keep v (.inl hnm)]
        rcases List.mem_append.1 hmem with hp | hp
        · exact h.md v hp k hk
        · cases hpre : pre with
          | false => rw [hpre] at hp; simp at hp
          | true => rw [hpre] at hp; exact absurd (by simpa using hp) hnm
      · rename_i hlt
        have hnm : v ∉ db.mod.values := fun hx => by
          rw [List.nodup_append] at hn
          exact hn.2.2 v hx v (List.mem_of_getElem? hk) rfl
        rcases List.mem_append.1 hmem with hp | hp
        · exact absurd (h.sub v hp) hnm
        · cases hpre : pre with
          | false => rw [hpre] at hp; simp at hp
          | true =>
            rw [← hpre, b.md hpre _ v hk]
            congr 2; omega
    · intro v hmem
      rw [hmod, hval]
      rcases List.mem_append.1 hmem with hp | hp
      · exact List.mem_append_left _ (h.sub v hp)
      · cases hpre : pre with
        | false => rw [hpre] at hp; simp at hp
        | true => rw [hpre] at hp; exact List.mem_append_right _ (by simpa using hp)
  · intro v hv
    exact b.keep v hv

theorem Module.Wf.prefix {m : Module} {fs : List Fun} (h : Module.Wf (m.add fs)) : m.Wf := by
  refine ⟨?_, fun f h1 g h2 => h.ids f (List.mem_append_left _ h1) g (List.mem_append_left _ h2),
    fun f h1 g h2 => h.names f (List.mem_append_left _ h1) g (List.mem_append_left _ h2)⟩
  have := h.vals
  simp only [Module.values, Module.add, List.map_append, List.flatten_append, ← List.append_assoc] at this
  exact (List.nodup_append.1 this).1

theorem life_ok (pre : Bool) (m : Module) (md : Val → Option Str) (fs : List (Fun × Bool))
    (hw : Module.Wf (m.add (fs.map Prod.fst))) :
    ∃ db, life pre m md fs = some db ∧ db.mod = (m.add (fs.map Prod.fst)) ∧
      DInv db ((if pre then m.values else []) ++ (fs.map (fun p => if p.2 then p.1.insts else [])).flatten) ∧
      ∀ v, (pre = false ∧ ∀ p ∈ fs, p.2 = false) → db.md v = md v := by
  obtain ⟨db0, h0, hm0, hi0, hk0⟩ := construct_ok pre m md hw.prefix
  unfold life
  rw [h0]
  show ∃ db, fs.foldlM _ db0 = some db ∧ _
  have key : ∀ (fs : List (Fun × Bool)) (db0 : IRDB) (P : List Val), DInv db0 P →
      Module.Wf (db0.mod.add (fs.map Prod.fst)) →
      ∃ db, fs.foldlM (fun db p => insertFunction (addFun db p.1) p.1 p.2) db0 = some db ∧
        db.mod = (db0.mod.add (fs.map Prod.fst)) ∧
        DInv db (P ++ (fs.map (fun p => if p.2 then p.1.insts else [])).flatten) ∧
        ∀ v, (∀ p ∈ fs, p.2 = false) → db.md v = db0.md v := by
    intro fs
    induction fs with
    | nil => intro db0 P h _; exact ⟨db0, rfl, by simp [Module.add], by simpa using h, fun _ _ => rfl⟩
    | cons p fs ih =>
      intro db0 P h hw
      obtain ⟨db1, h1, m1, i1, k1⟩ := insert_ok h p.1 p.2 (Module.Wf.prefix (fs := fs.map Prod.fst) (by simpa [Module.add] using hw))
      obtain ⟨db, h2, m2, i2, k2⟩ := ih db1 _ i1 (by rw [m1]; simpa [Module.add] using hw)
      refine ⟨db, by rw [List.foldlM_cons, h1]; exact h2, by rw [m2, m1]; simp [Module.add], by simpa using i2, fun v hv => ?_⟩
      rw [k2 v (fun q hq => hv q (List.mem_cons_of_mem _ hq))]
      exact k1 v (.inr (hv p List.mem_cons_self))
  obtain ⟨db, h1, h2, h3, h4⟩ := key fs db0 _ hi0 (by rw [hm0]; exact hw)
  exact ⟨db, h1, by rw [h2, hm0], h3, fun v hv => by rw [h4 v hv.2]; exact hk0 v (.inr hv.1)⟩

end Phasar.DB
