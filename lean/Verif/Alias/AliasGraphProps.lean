import Verif.Alias.AliasGraphMerge
/-!
# C80: the alias graph

What `LLVMAliasGraph.cpp` answers, and where it does not answer.
-/
namespace Phasar.AliasGraph

/-- Graphs made by asking for the allocation sites of pointers and by introducing aliases between pointers, without an
instruction; with the aliases introduced. -/
inductive Hist (P : Prog) : St → List (Val × Val) → Prop
  | init : Hist P {} []
  | sites {s s' : St} {I : List (Val × Val)} {f : Nat} {v : Val} {r : List Val} : Hist P s I → Local P f v → sites P v s = some (r, s') →
      Hist P s' I
  | intro {s s' : St} {I : List (Val × Val)} {f g : Nat} {v w : Val} : Hist P s I → Local P f v → Local P g w →
      introduce P v w none s = some s' → Hist P s' (I ++ [(v, w)])

theorem C80.inv {P : Prog} (hf : Fits P) {s : St} {I : List (Val × Val)} (h : Hist P s I) : ∃ T, Inv P s I T := by
  induction h with
  | init => exact ⟨[], Inv.init P⟩
  | sites _ hv hs ih =>
    obtain ⟨T, h⟩ := ih
    obtain ⟨r, e, _⟩ := h.sites hf hv
    rw [e] at hs
    obtain ⟨T1, h1, _⟩ := h.compute hf _
    injection hs with hs
    injection hs with _ e2
    exact ⟨T1, e2 ▸ h1⟩
  | intro _ hv hw hs ih =>
    obtain ⟨T, h⟩ := ih
    obtain ⟨s1, T1, e, h1, _⟩ := h.introduce hf hv hw
    rw [e] at hs
    exact ⟨T1, Option.some.inj hs ▸ h1⟩

/-- **C80 (total).**  In every such graph the allocation sites of a pointer can be asked for, and an alias can be introduced
without an instruction. -/
theorem C80_total_partial {P : Prog} (hf : Fits P) {s : St} {I : List (Val × Val)} (h : Hist P s I) {f g : Nat} {v w : Val}
    (hv : Local P f v) (hw : Local P g w) : (∃ r, sites P v s = some r) ∧ ∃ s', introduce P v w none s = some s' := by
  obtain ⟨T, h⟩ := C80.inv hf h
  obtain ⟨r, e, _⟩ := h.sites hf hv
  obtain ⟨s', _, e', _⟩ := h.introduce hf hv hw
  exact ⟨⟨_, e⟩, s', e'⟩

/-- **C80 (sites).**  The allocation sites of a pointer are those among its aliases: what the alias analysis of a function relates in
any number of steps, in both directions, together with the aliases introduced.  A global is a pointer of its own in every
function.  Partial: see `Fits`; an instruction or a parameter only, no instructions at the edges. -/
theorem C80_sites_partial {P : Prog} (hf : Fits P) {s : St} {I : List (Val × Val)} (h : Hist P s I) {f : Nat} {v : Val}
    (hv : Local P f v) {r : List Val} {s' : St} (hr : sites P v s = some (r, s')) (x : Val) :
    x ∈ r ↔ P.site x = true ∧ ∃ g, Same P I (f, v) (g, x) := by
  obtain ⟨T, h⟩ := C80.inv hf h
  obtain ⟨r', e, hm⟩ := h.sites hf hv
  rw [e] at hr
  have e1 : r' = r := congrArg Prod.fst (Option.some.inj hr)
  exact e1 ▸ hm x

/-- **C80 (order).**  The answer depends on the aliases introduced only, not on what was asked before or in which order. -/
theorem C80_order_partial {P : Prog} (hf : Fits P) {s t : St} {I J : List (Val × Val)} (h : Hist P s I) (k : Hist P t J)
    (hIJ : ∀ e, e ∈ I ↔ e ∈ J) {f : Nat} {v : Val} (hv : Local P f v) {r q : List Val} {s' t' : St}
    (hr : sites P v s = some (r, s')) (hq : sites P v t = some (q, t')) (x : Val) : x ∈ r ↔ x ∈ q := by
  rw [C80_sites_partial hf h hv hr, C80_sites_partial hf k hv hq]
  have mono : ∀ {I J : List (Val × Val)}, (∀ e ∈ I, e ∈ J) → ∀ {a b}, Same P I a b → Same P J a b := by
    intro I J hIJ a b hs
    induction hs with
    | refl => exact .refl
    | step _ e ih => exact ih.step (e.imp (Base.mono hIJ) (Base.mono hIJ))
  exact and_congr Iff.rfl ⟨fun ⟨g, hg⟩ => ⟨g, mono (fun e he => (hIJ e).1 he) hg⟩, fun ⟨g, hg⟩ => ⟨g, mono (fun e he => (hIJ e).2 he) hg⟩⟩

/-- **C80 (introduced).**  After an alias has been introduced, both pointers have the same allocation sites. -/
theorem C80_introduced_partial {P : Prog} (hf : Fits P) {s s1 : St} {I : List (Val × Val)} (h : Hist P s I) {f g : Nat} {v w : Val}
    (hv : Local P f v) (hw : Local P g w) (hi : introduce P v w none s = some s1) {r q : List Val} {s' t' : St}
    (hr : sites P v s1 = some (r, s')) (hq : sites P w s1 = some (q, t')) (x : Val) : x ∈ r ↔ x ∈ q := by
  have h1 := Hist.intro h hv hw hi
  rw [C80_sites_partial hf h1 hv hr, C80_sites_partial hf h1 hw hq]
  have hb : Base P (I ++ [(v, w)]) (f, v) (g, w) := .intro (List.mem_append.2 (.inr (List.mem_singleton.2 rfl))) hv hw
  have tr : ∀ {a b c}, Same P (I ++ [(v, w)]) a b → Same P (I ++ [(v, w)]) b c → Same P (I ++ [(v, w)]) a c := by
    intro a b c h k
    induction k with
    | refl => exact h
    | step _ e ih => exact ih.step e
  exact and_congr Iff.rfl ⟨fun ⟨k, hk⟩ => ⟨k, tr (Same.refl.step (.inr hb)) hk⟩, fun ⟨k, hk⟩ => ⟨k, tr (Same.refl.step (.inl hb)) hk⟩⟩

/-- **C80 (vertices).**  The values in the graph are the pointers of the functions analysed; the parameters that escape are the
parameters among them; the pointers that escape through the return instructions of a function are those used by one, in
whichever function they were seen. -/
theorem C80_vertices_partial {P : Prog} (hf : Fits P) {s : St} {I : List (Val × Val)} (h : Hist P s I) :
    (∀ x, containsValue s x = true ↔ ∃ f ∈ s.fns, x ∈ P.ptrs f) ∧
    (∀ k x, (k, x) ∈ escapingParams s ↔ ∃ f ∈ s.fns, x = .arg f k ∧ x ∈ P.ptrs f) ∧
    (∀ x, x ∈ escapingRets P s ↔ P.rets x ≠ [] ∧ ∃ f ∈ s.fns, x ∈ P.ptrs f) ∧
    (∀ f x, x ∈ escapingRetsOf P f s ↔ f ∈ P.rets x ∧ ∃ g ∈ s.fns, x ∈ P.ptrs g) := by
  obtain ⟨T, h⟩ := C80.inv hf h
  have hm : ∀ x, x ∈ s.verts ↔ ∃ f ∈ s.fns, x ∈ P.ptrs f := by
    intro x
    rw [← h.verts, List.mem_map]
    constructor
    · rintro ⟨⟨f, y⟩, hT, rfl⟩
      exact ⟨f, (h.mem f y).1 hT⟩
    · rintro ⟨f, hx⟩
      exact ⟨(f, x), (h.mem f x).2 hx, rfl⟩
  refine ⟨fun x => ?_, fun k x => ?_, fun x => ?_, fun f x => ?_⟩
  · rw [← hm]; simp [containsValue]
  · simp only [escapingParams, List.mem_filterMap]
    constructor
    · rintro ⟨v, hv, e⟩
      cases v with
      | arg f j =>
        have e' := Option.some.inj e
        have e1 : j = k := congrArg Prod.fst e'
        have e2 : Val.arg f j = x := congrArg Prod.snd e'
        obtain ⟨g, hg, hx⟩ := (hm _).1 hv
        obtain rfl : f = g := hf.own hx rfl
        subst e1 e2
        exact ⟨f, hg, rfl, hx⟩
      | _ => exact nomatch e
    · rintro ⟨f, hg, rfl, hx⟩
      exact ⟨_, (hm _).2 ⟨f, hg, hx⟩, rfl⟩
  · rw [← hm, escapingRets, List.mem_flatMap]
    constructor
    · rintro ⟨v, hv, e⟩
      obtain ⟨g, hg, rfl⟩ := List.mem_map.1 e
      exact ⟨fun h => (nomatch (h ▸ hg : g ∈ ([] : List Nat))), hv⟩
    · rintro ⟨hn, hv⟩
      obtain ⟨g, hg⟩ := List.exists_mem_of_ne_nil _ hn
      exact ⟨x, hv, List.mem_map.2 ⟨g, hg, rfl⟩⟩
  · rw [← hm, escapingRetsOf, List.mem_flatMap]
    constructor
    · rintro ⟨v, hv, e⟩
      obtain ⟨g, hg, rfl⟩ := List.mem_map.1 e
      obtain ⟨a, b⟩ := List.mem_filter.1 hg
      exact ⟨of_decide_eq_true b ▸ a, hv⟩
    · rintro ⟨hn, hv⟩
      exact ⟨x, hv, List.mem_map.2 ⟨f, List.mem_filter.2 ⟨hn, decide_eq_true rfl⟩, rfl⟩⟩

theorem C80.merge_sites {P : Prog} {s o : St} {f i : Nat} {v : Val} (hv : retrieveFunction v = some f)
    (hm : f ∈ (mergeWith s o).fns) (hfi : find (mergeWith s o).vmap v = some i) (hi : i < (mergeWith s o).verts.length)
    (w : (mergeWith s o).Wf) (hp : (mergeWith s o).Plain) : ∃ r, sites P v (mergeWith s o) = some (r, mergeWith s o) ∧
      ∀ x, x ∈ r ↔ ∃ j, Path (mergeWith s o) i j ∧ (mergeWith s o).verts[j]? = some x ∧ P.site x = true := by
  have hc : compute P f (mergeWith s o) = mergeWith s o := if_pos hm
  have hs : slot v (compute P f (mergeWith s o)) = (i, compute P f (mergeWith s o)) := by
    rw [hc]; unfold slot; rw [hfi]
  obtain ⟨t, ht, hr⟩ := search_ok (P := P) w hp hi
  exact ⟨t.2, by rw [sites_eq hv hs, hc, ht]; rfl, hr⟩

/-- **C80 (merging, own functions).**  Merging another graph into this one does not change the allocation sites of the pointers of
functions analysed in this one. -/
theorem C80_merge_own_partial {P : Prog} (hf : Fits P) {s o : St} {I J : List (Val × Val)} (h : Hist P s I) (k : Hist P o J)
    {f : Nat} {v : Val} (hv : Local P f v) (hm : f ∈ s.fns) : ∃ r s', sites P v (mergeWith s o) = some (r, s') ∧
      ∀ x, x ∈ r ↔ P.site x = true ∧ ∃ g, Same P I (f, v) (g, x) := by
  obtain ⟨T, h⟩ := C80.inv hf h
  obtain ⟨T', k⟩ := C80.inv hf k
  obtain ⟨i, _, hfi, hi⟩ := h.slot hf hv hm
  have hl : T.length = s.verts.length := by rw [← h.verts, List.length_map]
  have hil : i < s.verts.length := hl ▸ (List.getElem?_eq_some_iff.1 hi).1
  obtain ⟨r, e, hr⟩ := C80.merge_sites (P := P) (o := o) hv.1 (List.mem_append.2 (.inl hm)) (find_append_left hfi)
    (Nat.lt_of_lt_of_le hil (by show _ ≤ (s.verts ++ o.verts).length; rw [List.length_append]; omega))
    (merge_wf h.wf k.wf) (merge_plain h.plain k.plain)
  refine ⟨r, _, e, fun x => ?_⟩
  rw [hr]
  constructor
  · rintro ⟨j, hp, hj, hs⟩
    obtain ⟨hp, hjl⟩ := (merge_path_left h.wf hil).1 hp
    have hj : (s.verts ++ o.verts)[j]? = some x := hj
    rw [List.getElem?_append_left hjl, ← h.verts, List.getElem?_map] at hj
    cases hT : T[j]? with
    | none => rw [hT] at hj; exact nomatch hj
    | some b =>
      rw [hT] at hj
      have e : b.2 = x := Option.some.inj hj
      exact ⟨hs, b.1, by rw [← e]; exact (h.path hi b).1 ⟨j, hp, hT⟩⟩
  · rintro ⟨hs, g, hS⟩
    obtain ⟨j, hp, hj⟩ := (h.path hi (g, x)).2 hS
    have hjl : j < s.verts.length := hl ▸ (List.getElem?_eq_some_iff.1 hj).1
    refine ⟨j, (merge_path_left h.wf hil).2 ⟨hp, hjl⟩, ?_, hs⟩
    show (s.verts ++ o.verts)[j]? = some x
    rw [List.getElem?_append_left hjl, ← h.verts, List.getElem?_map, hj]; rfl

/-- **C80 (merging, other functions).**  The pointers of functions analysed in the other graph only have the allocation sites
they had there. -/
theorem C80_merge_other_partial {P : Prog} (hf : Fits P) {s o : St} {I J : List (Val × Val)} (h : Hist P s I) (k : Hist P o J)
    {f : Nat} {v : Val} (hv : Local P f v) (hn : f ∉ s.fns) (hm : f ∈ o.fns) : ∃ r s', sites P v (mergeWith s o) = some (r, s') ∧
      ∀ x, x ∈ r ↔ P.site x = true ∧ ∃ g, Same P J (f, v) (g, x) := by
  obtain ⟨T, h⟩ := C80.inv hf h
  obtain ⟨T', k⟩ := C80.inv hf k
  obtain ⟨i, _, hfi, hi⟩ := k.slot hf hv hm
  have hl : T'.length = o.verts.length := by rw [← k.verts, List.length_map]
  have hil : i < o.verts.length := hl ▸ (List.getElem?_eq_some_iff.1 hi).1
  have hnone : find s.vmap v = none := by
    cases hc : find s.vmap v with
    | none => rfl
    | some j =>
      obtain ⟨g, hg⟩ := h.vm v j (find_mem hc)
      have hgm := (h.mem g v).1 (List.mem_of_getElem? hg)
      obtain rfl : f = g := hf.own hgm.2 hv.1
      exact absurd hgm.1 hn
  have hlen : (mergeWith s o).verts.length = s.verts.length + o.verts.length := List.length_append
  obtain ⟨r, e, hr⟩ := C80.merge_sites (P := P) (s := s) hv.1
    (List.mem_append.2 (.inr (List.mem_filter.2 ⟨hm, decide_eq_true hn⟩))) (merge_find_right k.keys hnone hfi hil)
    (by omega) (merge_wf h.wf k.wf) (merge_plain h.plain k.plain)
  refine ⟨r, _, e, fun x => ?_⟩
  rw [hr]
  constructor
  · rintro ⟨j, hp, hj, hs⟩
    obtain ⟨j, rfl, hq⟩ := (merge_path_right h.wf).1 hp
    have hj : (s.verts ++ o.verts)[j + s.verts.length]? = some x := hj
    rw [List.getElem?_append_right (by omega), Nat.add_sub_cancel, ← k.verts, List.getElem?_map] at hj
    cases hT : T'[j]? with
    | none => rw [hT] at hj; exact nomatch hj
    | some b =>
      rw [hT] at hj
      have e : b.2 = x := Option.some.inj hj
      exact ⟨hs, b.1, by rw [← e]; exact (k.path hi b).1 ⟨j, hq, hT⟩⟩
  · rintro ⟨hs, g, hS⟩
    obtain ⟨j, hp, hj⟩ := (k.path hi (g, x)).2 hS
    refine ⟨j + s.verts.length, (merge_path_right h.wf).2 ⟨j, rfl, hp⟩, ?_, hs⟩
    show (s.verts ++ o.verts)[j + s.verts.length]? = some x
    rw [List.getElem?_append_right (by omega), Nat.add_sub_cancel, ← k.verts, List.getElem?_map, hj]; rfl

/-- **C80 (alias).**  No alias set can be asked for and no two values can be tested: for every program, graph and value the code
dereferences a null pointer, since `getAliasSet` asks for the function of the function. -/
theorem C80_alias_false (P : Prog) (v w : Val) (s : St) : aliasSet P v s = none ∧ alias P v w s = none := by
  have h : ∀ s, aliasSet P v s = none := by
    intro s
    unfold aliasSet computeVal
    cases retrieveFunction v <;> rfl
  refine ⟨h s, ?_⟩
  unfold alias
  cases computeVal P (some v) s with
  | none => rfl
  | some s1 =>
    simp only [Option.bind_eq_bind, Option.bind_some]
    cases computeVal P (some w) s1 with
    | none => rfl
    | some s2 => simp only [Option.bind_some, h]; rfl

/-- **C80 (globals).**  The allocation sites of a global, a constant or a function cannot be asked for, nor can an alias of one be
introduced: a null pointer is dereferenced, in every graph. -/
theorem C80_global_false (P : Prog) {v : Val} (hv : retrieveFunction v = none) (w : Val) (i : Option Nat) (s : St) :
    sites P v s = none ∧ introduce P v w i s = none ∧ introduce P w v i s = none := by
  have h : ∀ s, computeVal P (some v) s = none := fun s => by
    unfold computeVal; simp only [Option.bind_some, hv]; rfl
  refine ⟨by unfold sites; rw [h]; rfl, by unfold introduce; rw [h]; rfl, ?_⟩
  unfold introduce
  cases computeVal P (some w) s with
  | none => rfl
  | some s1 => simp only [Option.bind_eq_bind, Option.bind_some, h]; rfl

/-- **C80 (instructions at edges).**  With an alias introduced together with an instruction, asking for the allocation sites reads
the call stack, which is empty and gone: `f` has the allocations `0` and `1` and nothing else. -/
theorem C80_label_false : ∃ P : Prog, Fits P ∧ Local P 0 (.inst 0 0) ∧ Local P 0 (.inst 0 1) ∧
    ∃ s, introduce P (.inst 0 0) (.inst 0 1) (some 7) {} = some s ∧ sites P (.inst 0 0) s = none := by
  refine ⟨⟨fun f => if f = 0 then [.inst 0 0, .inst 0 1] else [], fun _ => true, fun _ _ _ => false, fun _ => []⟩, ⟨?_, ?_, ?_, ?_⟩,
    ⟨rfl, by decide⟩, ⟨rfl, by decide⟩, _, rfl, by decide⟩
  · intro f; show (if f = 0 then _ else _ : List Val).Nodup; split <;> decide
  · intro f x g hx hg
    have hx : x ∈ (if f = 0 then [.inst 0 0, .inst 0 1] else [] : List Val) := hx
    split at hx
    · rename_i e
      simp only [List.mem_cons, List.not_mem_nil, or_false] at hx
      rcases hx with rfl | rfl <;> exact e ▸ (Option.some.inj hg).symm
    · exact nomatch hx
  · exact nofun
  · exact nofun

/-- **C80 (other instructions).**  An instruction that is not a pointer has the allocation sites of the first vertex, and an alias
introduced for it is an alias of the first vertex. -/
theorem C80_default_false : ∃ P : Prog, .inst 0 5 ∉ P.ptrs 0 ∧ (∀ f x y, P.aa f x y = false) ∧
    (∃ s, sites P (.inst 0 5) {} = some ([.inst 0 0], s)) ∧
    ∃ s s', introduce P (.inst 0 1) (.inst 0 5) none {} = some s ∧ sites P (.inst 0 1) s = some ([.inst 0 0, .inst 0 1], s') :=
  ⟨⟨fun f => if f = 0 then [.inst 0 0, .inst 0 1] else [], fun _ => true, fun _ _ _ => false, fun _ => []⟩, by decide, fun _ _ _ => rfl,
    ⟨_, rfl⟩, _, _, rfl, rfl⟩

/-- **C80 (order, other functions).**  If the alias analysis of one function answers `MayAlias` for pointers of others, which the code
does ask for, the answer depends on what was asked before: the allocations `0` of `f` and of `g` are aliases for the analysis of `g`
only, and are reported as aliases in `f` only after `g` was looked at. -/
theorem C80_order_false : ∃ P : Prog, (∀ f, (P.ptrs f).Nodup) ∧ (∀ f x y, P.aa f x y = P.aa f y x) ∧
    (∃ s, sites P (.inst 0 0) {} = some ([.inst 0 0], s)) ∧
    ∃ r s s', sites P (.inst 0 0) {} = some (r, s) ∧ (sites P (.inst 1 0) s).map (·.2) = some s' ∧
      ∃ s'', sites P (.inst 0 0) s' = some ([.inst 1 0, .inst 0 0], s'') :=
  ⟨⟨fun f => [.inst f 0], fun _ => true, fun f _ _ => f = 1, fun _ => []⟩, fun _ => List.nodup_cons.2 ⟨nofun, List.nodup_nil⟩,
    fun _ _ _ => rfl, ⟨_, rfl⟩, _, _, _, rfl, rfl, _, rfl⟩

namespace C80

/-- Two functions: in `0` the pointer `inst 0 1` may alias the allocation `inst 0 0` and the global `other 9`; in `1` the allocation
`inst 1 0` may alias the global, and the parameter `arg 1 0`, which is returned, nothing. -/
def prog : Prog where
  ptrs f := if f = 0 then [.inst 0 0, .inst 0 1, .other 9] else if f = 1 then [.arg 1 0, .inst 1 0, .other 9] else []
  site v := v = .inst 0 0 || v = .inst 1 0
  aa f x y := if f = 0 then [Val.inst 0 0, .inst 0 1, .other 9].contains x && [Val.inst 0 0, .inst 0 1, .other 9].contains y
    else f = 1 && [Val.inst 1 0, .other 9].contains x && [Val.inst 1 0, .other 9].contains y
  rets v := if v = .arg 1 0 then [1] else []

theorem prog_fits : Fits prog where
  nodup := fun f => by
    show (if f = 0 then _ else if f = 1 then _ else _ : List Val).Nodup
    split
    · decide
    · split <;> decide
  own := fun {f x g} hx hg => by
    have hx : x ∈ (if f = 0 then [.inst 0 0, .inst 0 1, .other 9] else if f = 1 then [.arg 1 0, .inst 1 0, .other 9] else [] : List Val) := hx
    split at hx
    · rename_i e
      simp only [List.mem_cons, List.not_mem_nil, or_false] at hx
      rcases hx with rfl | rfl | rfl
      · exact e ▸ (Option.some.inj hg).symm
      · exact e ▸ (Option.some.inj hg).symm
      · exact nomatch hg
    · split at hx
      · rename_i e
        simp only [List.mem_cons, List.not_mem_nil, or_false] at hx
        rcases hx with rfl | rfl | rfl
        · exact e ▸ (Option.some.inj hg).symm
        · exact e ▸ (Option.some.inj hg).symm
        · exact nomatch hg
      · exact nomatch hx
  symm := fun {f x y} h => by
    simp only [prog] at h ⊢
    split at h
    · rename_i e
      rw [if_pos e]
      rw [Bool.and_eq_true] at h ⊢
      exact ⟨h.2, h.1⟩
    · rename_i e
      rw [if_neg e]
      simp only [Bool.and_eq_true] at h ⊢
      exact ⟨⟨h.1.1, h.2⟩, h.1.2⟩
  inner := fun {f x y} h => by
    simp only [prog] at h ⊢
    split at h
    · rename_i e
      simp only [List.contains_eq_mem, Bool.and_eq_true, decide_eq_true_eq] at h
      rw [if_pos e]
      exact h
    · rename_i e
      simp only [List.contains_eq_mem, Bool.and_eq_true, decide_eq_true_eq] at h
      obtain ⟨⟨rfl, h1⟩, h2⟩ := h
      exact ⟨List.mem_cons_of_mem _ h1, List.mem_cons_of_mem _ h2⟩

theorem l00 : Local prog 0 (.inst 0 0) := ⟨rfl, by decide⟩
theorem l01 : Local prog 0 (.inst 0 1) := ⟨rfl, by decide⟩
theorem l10 : Local prog 1 (.arg 1 0) := ⟨rfl, by decide⟩
theorem l11 : Local prog 1 (.inst 1 0) := ⟨rfl, by decide⟩

end C80

-- the allocation of the own function, although the global is used in both functions
example : (sites C80.prog (.inst 0 1) {}).map (·.1) = some [.inst 0 0] := by decide
-- after an alias was introduced between the parameter of `1` and `inst 0 1`, and another between the parameter and `inst 1 0`
example : ((introduce C80.prog (.inst 0 1) (.arg 1 0) none {}).bind fun s => (introduce C80.prog (.arg 1 0) (.inst 1 0) none s).bind fun s =>
    (sites C80.prog (.inst 0 1) s).map (·.1)) = some [.inst 0 0, .inst 1 0] := by decide
-- a graph with two functions analysed and an alias introduced
example : ∃ s, Hist C80.prog s [(.inst 0 1, .arg 1 0)] ∧ 1 ∈ s.fns ∧ escapingParams s = [(0, .arg 1 0)] ∧
    escapingRetsOf C80.prog 1 s = [.arg 1 0] ∧ containsValue s (.other 9) = true :=
  ⟨_, .intro .init C80.l01 C80.l10 rfl, by decide, by decide, by decide, by decide⟩
-- the two graphs of the theorems about merging: one with function `0`, one with both
example : ∃ s o, Hist C80.prog s [] ∧ Hist C80.prog o [(.inst 1 0, .arg 1 0)] ∧ 0 ∈ s.fns ∧ 1 ∉ s.fns ∧ 1 ∈ o.fns ∧
    (sites C80.prog (.arg 1 0) (mergeWith s o)).map (·.1) = some [.inst 1 0] ∧
    (sites C80.prog (.inst 0 1) (mergeWith s o)).map (·.1) = some [.inst 0 0] :=
  ⟨_, _, .sites .init C80.l00 rfl, .intro .init C80.l11 C80.l10 rfl, by decide, by decide, by decide, by decide, by decide⟩

/-- **C80 (merging, both).**  Aliases introduced in the other graph are lost for pointers of functions that both graphs
have. -/
theorem C80_merge_false : ∃ (P : Prog) (s o : St), Fits P ∧ Hist P s [] ∧ Hist P o [(.inst 1 0, .arg 1 0)] ∧ 1 ∈ s.fns ∧
    (∃ s', sites P (.arg 1 0) o = some ([.inst 1 0], s')) ∧ ∃ s', sites P (.arg 1 0) (mergeWith s o) = some ([], s') :=
  ⟨C80.prog, _, _, C80.prog_fits, .sites .init C80.l11 rfl, .intro .init C80.l11 C80.l10 rfl, by decide, ⟨_, rfl⟩, _, rfl⟩

end Phasar.AliasGraph
