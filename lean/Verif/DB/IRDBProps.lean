import Verif.DB.IRDBLemmas
/-! # C60: the ids of the values of a module -/
namespace Phasar.DB

open Phasar Phasar.StringID

/-- The values of the module that a life of the database gives metadata to. -/
def C60.processed (pre : Bool) (m : Module) (fs : List (Fun × Bool)) : List Val :=
  (if pre then m.values else []) ++ (fs.map (fun p => if p.2 then p.1.insts else [])).flatten

/-- The module at the end of a life. -/
def C60.final (m : Module) (fs : List (Fun × Bool)) : Module := m.add (fs.map Prod.fst)

theorem C60.values_final (m : Module) (fs : List (Fun × Bool)) :
    (C60.final m fs).values = m.values ++ (fs.map (fun p => p.1.insts)).flatten := by
  simp [C60.final, Module.add, Module.values, List.map_map, Function.comp_def]

theorem C60.value_get (db : IRDB) (k : Nat) : getValueFromId db k = db.idToInst[k]? := by
  unfold getValueFromId
  split
  · rfl
  · rw [List.getElem?_eq_none (by omega)]

theorem C60.kinds {m : Module} {k : Nat} {v : Val} (h : m.values[k]? = some v) (hk : m.globals.length ≤ k) : ∃ n, v = .inst n := by
  unfold Module.values at h
  rw [List.getElem?_append_right (by simpa using hk)] at h
  have := List.mem_of_getElem? h
  simp only [List.mem_flatten, List.mem_map] at this
  obtain ⟨l, ⟨f, _, rfl⟩, hv⟩ := this
  simp only [Fun.insts, List.mem_map] at hv
  obtain ⟨n, _, rfl⟩ := hv
  exact ⟨n, rfl⟩

/-- C60: the construction and every later insertion succeed, and the ids are the positions of the values in the module at the
end: the global variables first, then the instructions of the functions in the order in which they were added.  Looking up the
id of a value and the value of an id are inverse to each other; `getInstruction` - whose test relies on unsigned overflow -
returns the instruction with the id, and null for the id of a global variable and for every number that is no id. -/
theorem C60_ids (pre : Bool) (m : Module) (md : Val → Option Str) (fs : List (Fun × Bool)) (hw : (C60.final m fs).Wf)
    (hs : (C60.final m fs).values.length < 18446744073709551616) :
    ∃ db, life pre m md fs = some db ∧
      (∀ k, getValueFromId db k = (C60.final m fs).values[k]?) ∧
      (∀ v k, getInstructionId db v = some k ↔ (C60.final m fs).values[k]? = some v) ∧
      (∀ k, k < 18446744073709551616 → getInstruction db k =
        some (if k < m.globals.length then none else (C60.final m fs).values[k]?)) ∧
      getAllInstructions db = ((C60.final m fs).funs.map Fun.insts).flatten ∧
      getNumInstructions db = ((C60.final m fs).funs.map Fun.insts).flatten.length := by
  obtain ⟨db, h1, h2, h3, _⟩ := life_ok pre m md fs hw
  have hmod : db.mod = C60.final m fs := h2
  have hids := h3.ids
  have hmap := h3.map
  have hoff := h3.offset
  have hgl : (C60.final m fs).globals = m.globals := rfl
  have hle : m.globals.length ≤ (C60.final m fs).values.length := by
    unfold Module.values; rw [hgl]; simp
  rw [hmod] at hids hmap hoff
  rw [hgl] at hoff
  refine ⟨db, h1, fun k => by rw [C60.value_get, hids], ?_, ?_, ?_, ?_⟩
  · intro v k
    unfold getInstructionId
    rw [hmap, lookup_zipIdx hw.vals]
    simp
  · intro k hk
    unfold getInstruction
    rw [hids, hoff]
    by_cases hg : k < m.globals.length
    · rw [if_pos hg, if_neg (by unfold sub64; omega)]
    · rw [if_neg hg]
      by_cases hl : k < (C60.final m fs).values.length
      · rw [if_pos (by unfold sub64; omega)]
        have he : (C60.final m fs).values[k]? = some (C60.final m fs).values[k] := List.getElem?_eq_getElem hl
        obtain ⟨n, hn⟩ := C60.kinds he (by rw [hgl]; omega)
        rw [he, hn]
      · rw [if_neg (by unfold sub64; omega), List.getElem?_eq_none (by omega)]
  · unfold getAllInstructions
    rw [hids, hoff]
    unfold Module.values
    rw [hgl, ← List.length_map (f := Val.glob), List.drop_left]
  · unfold getNumInstructions
    rw [hids, hoff]
    have : (C60.final m fs).values.length = m.globals.length + ((C60.final m fs).funs.map Fun.insts).flatten.length := by
      unfold Module.values; rw [hgl]; simp only [List.length_append, List.length_map]
    unfold sub64
    omega

/-- C60: insertions of functions leave the ids given before as they are. -/
theorem C60_stable (pre : Bool) (m : Module) (md : Val → Option Str) (fs gs : List (Fun × Bool)) (hw : (C60.final m (fs ++ gs)).Wf) :
    ∃ db db', life pre m md fs = some db ∧ life pre m md (fs ++ gs) = some db' ∧
      ∀ v k, getInstructionId db v = some k → getInstructionId db' v = some k ∧ getValueFromId db' k = some v := by
  have hw1 : (C60.final m fs).Wf := by
    refine Module.Wf.prefix (m := C60.final m fs) (fs := gs.map Prod.fst) ?_
    have : (C60.final m fs).add (gs.map Prod.fst) = C60.final m (fs ++ gs) := by
      simp [C60.final, Module.add]
    rw [this]; exact hw
  obtain ⟨db, h1, h2, h3, _⟩ := life_ok pre m md fs hw1
  obtain ⟨db', g1, g2, g3, _⟩ := life_ok pre m md (fs ++ gs) hw
  refine ⟨db, db', h1, g1, fun v k h => ?_⟩
  have e1 : db.mod = C60.final m fs := h2
  have e2 : db'.mod = C60.final m (fs ++ gs) := g2
  have a : (C60.final m fs).values[k]? = some v := by
    unfold getInstructionId at h
    rw [h3.map, e1, lookup_zipIdx hw1.vals] at h
    simpa using h.2
  have b : (C60.final m (fs ++ gs)).values[k]? = some v := by
    rw [C60.values_final] at a ⊢
    rw [List.map_append, List.flatten_append, ← List.append_assoc,
      List.getElem?_append_left (by rcases Nat.lt_or_ge k (m.values ++ (fs.map (fun p => p.1.insts)).flatten).length with h | h
                                    · exact h
                                    · rw [List.getElem?_eq_none h] at a; cases a)]
    exact a
  constructor
  · unfold getInstructionId
    rw [g3.map, e2, lookup_zipIdx hw.vals]
    simpa using b
  · rw [C60.value_get, g3.ids, e2]; exact b

/-- C60: the id in the metadata of every value processed, as a string, leads back to the value, as long as the ids fit into
32 bits. -/
theorem C60_roundtrip (pre : Bool) (m : Module) (md : Val → Option Str) (fs : List (Fun × Bool)) (hw : (C60.final m fs).Wf)
    (hs : (C60.final m fs).values.length ≤ 4294967296) :
    ∃ db, life pre m md fs = some db ∧ ∀ v ∈ C60.processed pre m fs, fromMetaDataId db (getMetaDataID db v) = some v := by
  obtain ⟨db, h1, h2, h3, _⟩ := life_ok pre m md fs hw
  refine ⟨db, h1, fun v hv => ?_⟩
  obtain ⟨k, hk⟩ := List.mem_iff_getElem?.1 (h3.sub v hv)
  have hmd := h3.md v hv k hk
  have hl : k < 4294967296 := by
    have : k < db.mod.values.length := by
      rcases Nat.lt_or_ge k db.mod.values.length with h | h
      · exact h
      · rw [List.getElem?_eq_none h] at hk; cases hk
    rw [h2] at this
    exact Nat.lt_of_lt_of_le this hs
  have hid : getMetaDataID db v = toStr k := by
    have hmem := h3.sub v hv
    simp only [Module.values, List.mem_append, List.mem_map, List.mem_flatten] at hmem
    rcases hmem with ⟨n, _, rfl⟩ | ⟨l, ⟨f, _, rfl⟩, hvf⟩
    · simp [getMetaDataID, hmd]
    · simp only [Fun.insts, List.mem_map] at hvf
      obtain ⟨n, _, rfl⟩ := hvf
      simp [getMetaDataID, hmd]
  rw [hid, fromMetaDataId_number db k hl, C60.value_get, h3.ids]
  exact hk

theorem C60.find_fun {m : Module} (hw : m.Wf) {f : Fun} (hf : f ∈ m.funs) : m.funs.find? (fun g => g.id = f.id) = some f := by
  cases h : m.funs.find? (fun g => g.id = f.id) with
  | none => exact absurd (List.find?_eq_none.1 h f hf) (by simp)
  | some g =>
    have h1 := List.find?_some h
    have h2 := List.mem_of_find?_eq_some h
    rw [hw.ids g h2 f hf (by simpa using h1)]

theorem C60.find_name {m : Module} (hw : m.Wf) {f : Fun} (hf : f ∈ m.funs) (hn : f.name ≠ []) :
    m.funs.find? (fun g => g.name = f.name) = some f := by
  cases h : m.funs.find? (fun g => g.name = f.name) with
  | none => exact absurd (List.find?_eq_none.1 h f hf) (by simp)
  | some g =>
    have h1 := List.find?_some h
    have h2 := List.mem_of_find?_eq_some h
    have h3 : g.name = f.name := by simpa using h1
    rw [hw.names g h2 f hf h3 (by rw [h3]; exact hn)]

/-- C60: the id of an argument leads back to it if the name of its function is not empty, does not start with `-`, and contains
no dot, whatever was preprocessed. -/
theorem C60_arguments_partial (pre : Bool) (m : Module) (md : Val → Option Str) (fs : List (Fun × Bool)) (hw : (C60.final m fs).Wf)
    (f : Fun) (hf : f ∈ (C60.final m fs).funs) (hd : 46 ∉ f.name) (hn : f.name ≠ []) (hm : f.name.head? ≠ some 45)
    (i : Nat) (hi : i < f.args) (hl : f.args ≤ 4294967296) :
    ∃ db, life pre m md fs = some db ∧ getMetaDataID db (.arg f.id i) = f.name ++ 46 :: toStr i ∧
      fromMetaDataId db (getMetaDataID db (.arg f.id i)) = some (.arg f.id i) := by
  obtain ⟨db, h1, h2, h3, _⟩ := life_ok pre m md fs hw
  have e : db.mod = C60.final m fs := h2
  have hid : getMetaDataID db (.arg f.id i) = f.name ++ 46 :: toStr i := by
    unfold getMetaDataID
    simp only [e, C60.find_fun hw hf]
  refine ⟨db, h1, hid, ?_⟩
  rw [hid]
  have hs := splitDot_append hd (toStr i)
  have hp := parseInt_toStr i (by omega) [] (fun _ _ h => by cases h)
  rw [List.append_nil] at hp
  have hg : getFunction db f.name = some f := by
    unfold getFunction
    rw [if_neg hn, e, C60.find_name hw hf hn]
  unfold fromMetaDataId
  cases hname : f.name with
  | nil => exact absurd hname hn
  | cons c cs =>
    rw [hname] at hs hg hm
    have hc : c ≠ 45 := fun h => hm (by simp [h])
    simp only [List.cons_append] at hs ⊢
    simp only [if_neg hc, hs, hp, hg]
    simp [getNthFunctionArgument, hi]

/-- C60: the names of the functions that have a dot - linked static functions, clones and intrinsics have - are cut at the
first one: no argument of such a function is found again. -/
theorem C60_dotted (pre : Bool) (m : Module) (md : Val → Option Str) (fs : List (Fun × Bool)) (hw : (C60.final m fs).Wf)
    (f : Fun) (hf : f ∈ (C60.final m fs).funs) (hd : 46 ∈ f.name) (i : Nat) :
    ∃ db, life pre m md fs = some db ∧ fromMetaDataId db (getMetaDataID db (.arg f.id i)) ≠ some (.arg f.id i) := by
  obtain ⟨db, h1, h2, h3, _⟩ := life_ok pre m md fs hw
  have e : db.mod = C60.final m fs := h2
  refine ⟨db, h1, fun hc => ?_⟩
  have hid : getMetaDataID db (.arg f.id i) = f.name ++ 46 :: toStr i := by
    unfold getMetaDataID
    simp only [e, C60.find_fun hw hf]
  have key : ∀ (s r : Str), 46 ∈ s → ∃ a b, s = a ++ 46 :: b ∧ splitDot (s ++ r) = some (a, b ++ r) := by
    intro s r
    induction s with
    | nil => intro h; cases h
    | cons c cs ih =>
      intro h
      by_cases hc : c = 46
      · exact ⟨[], cs, by simp [hc], by simp [splitDot, hc]⟩
      · obtain ⟨a, b, h1, h2⟩ := ih (by
          rcases List.mem_cons.1 h with h | h
          · exact absurd h.symm hc
          · exact h)
        exact ⟨c :: a, b, by simp [h1], by simp [splitDot, hc, h2]⟩
  obtain ⟨a, b, hab, hs⟩ := key f.name (46 :: toStr i) hd
  rw [hid] at hc
  unfold fromMetaDataId at hc
  split at hc
  · cases hc
  · split at hc
    · cases hc
    · rw [hs] at hc
      simp only at hc
      split at hc
      · cases hc
      · split at hc
        · rename_i g hg
          have hg1 : g ∈ (C60.final m fs).funs ∧ g.name = a := by
            unfold getFunction at hg
            split at hg
            · cases hg
            · rw [e] at hg
              exact ⟨List.mem_of_find?_eq_some hg, by simpa using List.find?_some hg⟩
          unfold getNthFunctionArgument at hc
          split at hc
          · cases hc
          · simp only [Option.some.injEq, Val.arg.injEq] at hc
            have := hw.ids g hg1.1 f hf hc.1
            rw [this, hab] at hg1
            have := congrArg List.length hg1.2
            simp at this
        · cases hc

/-- Two functions `f(a, b)` and `f.1(x)`, as `llvm-link` names them. -/
def C60.linked : Module := ⟨[], [⟨0, ascii "f", 2, [[0]]⟩, ⟨1, ascii "f.1", 1, [[1], [2]]⟩]⟩

/-- C60 is false for names with a dot, and not only by not finding the argument: the id `f.1.0` of the argument of `f.1` is
read as the second argument of `f`, a different value of another function. -/
theorem C60_dotted_false : ∃ db, life true C60.linked (fun _ => none) [] = some db ∧ C60.linked.Wf ∧
    getMetaDataID db (.arg 1 0) = ascii "f.1.0" ∧ fromMetaDataId db (getMetaDataID db (.arg 1 0)) = some (.arg 0 1) := by
  refine ⟨_, rfl, ⟨by decide, by decide, by decide⟩, by decide +kernel, by decide +kernel⟩

theorem C60.last_dot {a b : Str} {i j : Nat} (h : a ++ 46 :: toStr i = b ++ 46 :: toStr j) : a = b ∧ i = j := by
  have h' := congrArg List.reverse h
  simp only [List.reverse_append, List.reverse_cons, List.append_assoc, List.singleton_append] at h'
  have key : ∀ (x y u w : Str), 46 ∉ x → 46 ∉ y → x ++ 46 :: u = y ++ 46 :: w → x = y ∧ u = w := by
    intro x y u w hx hy hh
    have h1 := splitDot_append hx u
    have h2 := splitDot_append hy w
    rw [hh, h2] at h1
    simp only [Option.some.injEq, Prod.mk.injEq] at h1
    exact ⟨h1.1.symm, h1.2.symm⟩
  obtain ⟨h1, h2⟩ := key _ _ _ _ (by simpa using toStr_no_dot i) (by simpa using toStr_no_dot j) h'
  exact ⟨List.reverse_inj.1 h2, toStr_inj (List.reverse_inj.1 h1)⟩

/-- C60: the ids themselves are unambiguous: two of the values processed and the arguments of the named functions that have
the same id are the same value.  (So reading the name up to the last dot would find every argument.) -/
theorem C60_unambiguous (pre : Bool) (m : Module) (md : Val → Option Str) (fs : List (Fun × Bool)) (hw : (C60.final m fs).Wf) :
    ∃ db, life pre m md fs = some db ∧ ∀ v w,
      (v ∈ C60.processed pre m fs ∨ ∃ f ∈ (C60.final m fs).funs, f.name ≠ [] ∧ ∃ i, v = .arg f.id i) →
      (w ∈ C60.processed pre m fs ∨ ∃ f ∈ (C60.final m fs).funs, f.name ≠ [] ∧ ∃ i, w = .arg f.id i) →
      getMetaDataID db v = getMetaDataID db w → v = w := by
  obtain ⟨db, h1, h2, h3, _⟩ := life_ok pre m md fs hw
  have e : db.mod = C60.final m fs := h2
  have hnum : ∀ v ∈ C60.processed pre m fs, ∃ k : Nat, db.mod.values[k]? = some v ∧ getMetaDataID db v = toStr k := by
    intro v hv
    obtain ⟨k, hk⟩ := List.mem_iff_getElem?.1 (h3.sub v hv)
    have hmd := h3.md v hv k hk
    refine ⟨k, hk, ?_⟩
    have hmem := h3.sub v hv
    simp only [Module.values, List.mem_append, List.mem_map, List.mem_flatten] at hmem
    rcases hmem with ⟨n, _, rfl⟩ | ⟨l, ⟨f, _, rfl⟩, hvf⟩
    · simp [getMetaDataID, hmd]
    · simp only [Fun.insts, List.mem_map] at hvf
      obtain ⟨n, _, rfl⟩ := hvf
      simp [getMetaDataID, hmd]
  have harg : ∀ f ∈ (C60.final m fs).funs, ∀ i, getMetaDataID db (.arg f.id i) = f.name ++ 46 :: toStr i := by
    intro f hf i
    unfold getMetaDataID
    simp only [e, C60.find_fun hw hf]
  have hmix : ∀ (k : Nat) (a r : Str), toStr k ≠ a ++ 46 :: r := fun k a r h =>
    toStr_no_dot k (by rw [h]; simp)
  refine ⟨db, h1, ?_⟩
  rintro v w (hv | ⟨f, hf, hfn, i, rfl⟩) (hw' | ⟨g, hg, _, j, rfl⟩) heq
  · obtain ⟨k, hk, ek⟩ := hnum v hv
    obtain ⟨l, hl, el⟩ := hnum w hw'
    rw [ek, el] at heq
    rw [toStr_inj heq, hl] at hk
    injection hk with hk; exact hk.symm
  · obtain ⟨k, hk, ek⟩ := hnum v hv
    rw [ek, harg g hg] at heq
    exact absurd heq (hmix _ _ _)
  · obtain ⟨k, hk, ek⟩ := hnum w hw'
    rw [ek, harg f hf] at heq
    exact absurd heq.symm (hmix _ _ _)
  · rw [harg f hf, harg g hg] at heq
    obtain ⟨hn, hij⟩ := C60.last_dot heq
    rw [hw.names f hf g hg hn hfn, hij]

/-- C60: without preprocessing, values that come without metadata have no id as strings, and none of them can be found again. -/
theorem C60_unprocessed (m : Module) (fs : List Fun) (hw : (C60.final m (fs.map (·, false))).Wf) :
    ∃ db, life false m (fun _ => none) (fs.map (·, false)) = some db ∧
      ∀ v ∈ (C60.final m (fs.map (·, false))).values, getMetaDataID db v = ascii "-1" ∧ fromMetaDataId db (getMetaDataID db v) = none := by
  obtain ⟨db, h1, h2, h3, h4⟩ := life_ok false m (fun _ => none) (fs.map (·, false)) hw
  refine ⟨db, h1, fun v hv => ?_⟩
  have hmd := h4 v ⟨rfl, by simp⟩
  have hid : getMetaDataID db v = [45, 49] := by
    simp only [Module.values, List.mem_append, List.mem_map, List.mem_flatten] at hv
    rcases hv with ⟨n, _, rfl⟩ | ⟨l, ⟨f, _, rfl⟩, hvf⟩
    · simp [getMetaDataID, hmd]
    · simp only [Fun.insts, List.mem_map] at hvf
      obtain ⟨n, _, rfl⟩ := hvf
      simp [getMetaDataID, hmd]
  rw [hid]
  exact ⟨by decide, rfl⟩

/-- C60: `fromMetaDataId` reads the number at the start and ignores what follows it: many strings that are not the id of any
value are taken for one. -/
theorem C60_trailing (db : IRDB) (k : Nat) (hk : k < 4294967296) (rest : Str) (hd : 46 ∉ rest)
    (hr : ∀ c cs, rest = c :: cs → isDigit c = false) : fromMetaDataId db (toStr k ++ rest) = getValueFromId db k := by
  obtain ⟨c, cs, h1, h2⟩ := toStr_head k
  have h3 : c ≠ 45 := fun e => by subst e; simp [isDigit] at h2
  have h4 : splitDot (toStr k ++ rest) = none := splitDot_none (fun h => by
    rcases List.mem_append.1 h with h | h
    · exact toStr_no_dot k h
    · exact hd h)
  have h5 := parseInt_toStr k hk rest hr
  unfold fromMetaDataId
  rw [h1] at h4 h5 ⊢
  simp only [List.cons_append] at h4 h5 ⊢
  simp only [if_neg h3, h4, h5]

/-- C60: strings that are not the id of a value are rejected: those in which no number stands where it should, those with a number
that is no id, those of a function that does not exist, and those of an argument the function does not have. -/
theorem C60_unknown (db : IRDB) (s : Str) :
    (46 ∉ s → (∀ c cs, s = c :: cs → isDigit c = false) → fromMetaDataId db s = none) ∧
    (∀ k, k < 4294967296 → db.idToInst.length ≤ k → fromMetaDataId db (toStr k) = none) ∧
    (∀ name rest, s = name ++ 46 :: rest → 46 ∉ name → (∀ c cs, rest = c :: cs → isDigit c = false) → fromMetaDataId db s = none) ∧
    (∀ name rest, s = name ++ 46 :: rest → 46 ∉ name → (∀ f ∈ db.mod.funs, f.name ≠ name) → fromMetaDataId db s = none) ∧
    (∀ f i, s = f.name ++ 46 :: toStr i → 46 ∉ f.name → getFunction db f.name = some f → f.args ≤ i → fromMetaDataId db s = none) := by
  have hnd : ∀ r : Str, (∀ c cs, r = c :: cs → isDigit c = false) → parseInt r = none := by
    intro r hr
    cases r with
    | nil => rfl
    | cons c cs => simp [parseInt, digits, hr c cs rfl]
  have hdot : ∀ name rest : Str, 46 ∉ name → (parseInt rest = none ∨ getFunction db name = none ∨
      ∃ f, getFunction db name = some f ∧ ∀ i, parseInt rest = some i → f.args ≤ i) → fromMetaDataId db (name ++ 46 :: rest) = none := by
    intro name rest hn h
    have hs := splitDot_append hn rest
    cases hname : name with
    | nil =>
      subst hname
      simp only [List.nil_append] at hs
      unfold fromMetaDataId
      simp only [List.nil_append, hs, getFunction, if_true, show ¬ ((46 : Nat) = 45) by decide, if_false]
      cases parseInt rest <;> rfl
    | cons c cs =>
      subst hname
      unfold fromMetaDataId
      simp only [List.cons_append] at hs ⊢
      split
      · rfl
      · rw [hs]
        dsimp only
        cases hp : parseInt rest with
        | none => rfl
        | some i =>
          dsimp only
          rcases h with h | h | ⟨f, h, h'⟩
          · rw [hp] at h; cases h
          · rw [h]
          · rw [h]
            simp only [getNthFunctionArgument, h' i hp, if_true]
  refine ⟨?_, ?_, ?_, ?_, ?_⟩
  · intro hd hh
    unfold fromMetaDataId
    split
    · rfl
    · rename_i c cs
      split
      · rfl
      · rw [splitDot_none hd, hnd _ hh]
  · intro k hk hl
    rw [fromMetaDataId_number db k hk, C60.value_get, List.getElem?_eq_none hl]
  · intro name rest e hn hr
    rw [e]; exact hdot name rest hn (.inl (hnd _ hr))
  · intro name rest e hn hf
    rw [e]
    refine hdot name rest hn (.inr (.inl ?_))
    unfold getFunction
    split
    · rfl
    · exact List.find?_eq_none.2 (fun f hm => by simpa using hf f hm)
  · intro f i e hn hg ha
    rw [e]
    refine hdot f.name _ hn (.inr (.inr ⟨f, hg, fun j hj => ?_⟩))
    rcases Nat.lt_or_ge i 4294967296 with h | h
    · have := parseInt_toStr i h [] (fun _ _ h => by cases h)
      rw [List.append_nil, hj] at this
      injection this with this
      omega
    · rw [parseInt_large i h] at hj; cases hj

/-! ### A module with a global variable, a function with two blocks, and a function inserted later -/

/-- `@g; define main(argc) { 10, 11; 12 }`. -/
def C60.mod : Module := ⟨[5], [⟨0, ascii "main", 1, [[10, 11], [12]]⟩]⟩

/-- The function inserted, as by `GlobalCtorsDtorsModel`. -/
def C60.extra : Fun := ⟨1, ascii "__psrCRuntimeGlobalCtorsModel", 1, [[20, 21]]⟩

theorem C60.ex_wf : (C60.final C60.mod [(C60.extra, true)]).Wf := ⟨by decide, by decide, by decide⟩

example : ∃ db, life true C60.mod (fun _ => none) [(C60.extra, true)] = some db ∧
    (getInstructionId db (.inst 12) = some 3) ∧ (getInstruction db 0 = some none) ∧ (getInstruction db 5 = some (some (.inst 21))) ∧
    getInstruction db 6 = some none ∧ getNumInstructions db = 5 := by
  refine ⟨_, rfl, by decide +kernel, by decide +kernel, by decide +kernel, by decide +kernel, by decide +kernel⟩

example := C60_ids true C60.mod (fun _ => none) [(C60.extra, true)] C60.ex_wf (by decide)
example := (C60_unknown ⟨C60.mod, fun _ => none, 1, [.glob 5], [(.glob 5, 0)]⟩ (ascii "main.")).2.2.1 (ascii "main") [] rfl (by decide) (fun _ _ h => by cases h)
example := (C60_unknown ⟨C60.mod, fun _ => none, 1, [.glob 5], [(.glob 5, 0)]⟩ []).2.1 1 (by decide) (by decide)
example := C60_stable true C60.mod (fun _ => none) [] [(C60.extra, true)] C60.ex_wf
example := C60_roundtrip true C60.mod (fun _ => none) [(C60.extra, true)] C60.ex_wf (by decide)
example : C60.processed true C60.mod [(C60.extra, true)] = [.glob 5, .inst 10, .inst 11, .inst 12, .inst 20, .inst 21] := by decide
example := C60_arguments_partial true C60.mod (fun _ => none) [(C60.extra, true)] C60.ex_wf C60.extra (by decide) (by decide) (by decide)
  (by decide) 0 (by decide) (by decide)
example := C60_dotted true C60.linked (fun _ => none) [] ⟨by decide, by decide, by decide⟩ ⟨1, ascii "f.1", 1, [[1], [2]]⟩ (by decide)
  (by decide) 0
example := C60_unambiguous true C60.linked (fun _ => none) [] ⟨by decide, by decide, by decide⟩
example := C60_unprocessed C60.mod [C60.extra] ⟨by decide, by decide, by decide⟩
example (db : IRDB) : fromMetaDataId db (ascii "12abc") = getValueFromId db 12 :=
  C60_trailing db 12 (by decide) (ascii "abc") (by decide) (fun c cs h => by cases h; rfl)

end Phasar.DB
