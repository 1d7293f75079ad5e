import Verif.Alias.AliasGraphLemmas
/-!
# The vertices and edges of the alias graph after any number of calls
-/
namespace Phasar.AliasGraph

/-- What LLVM makes sure of, and that the alias analysis of a function relates only pointers of this function. -/
structure Fits (P : Prog) : Prop where
  /-- `Pointers` is a set. -/
  nodup : ∀ f, (P.ptrs f).Nodup
  /-- Instructions and parameters are operands in their own function only. -/
  own : ∀ {f x g}, x ∈ P.ptrs f → retrieveFunction x = some g → g = f
  symm : ∀ {f x y}, P.aa f x y = true → P.aa f y x = true
  inner : ∀ {f x y}, P.aa f x y = true → x ∈ P.ptrs f ∧ y ∈ P.ptrs f

/-- A pointer that is an instruction or a parameter of `f`. -/
def Local (P : Prog) (f : Nat) (v : Val) : Prop := retrieveFunction v = some f ∧ v ∈ P.ptrs f

/-- One reason for two pointers to be aliases, each as seen in a function: the alias analysis of this function, or an alias that
was introduced. -/
inductive Base (P : Prog) (I : List (Val × Val)) : Nat × Val → Nat × Val → Prop
  | aa {f x y} : P.aa f x y = true → Base P I (f, x) (f, y)
  | intro {f g x y} : (x, y) ∈ I → Local P f x → Local P g y → Base P I (f, x) (g, y)

/-- The aliases of a pointer: those that any number of such reasons, read in both directions, leads to. -/
inductive Same (P : Prog) (I : List (Val × Val)) (a : Nat × Val) : Nat × Val → Prop
  | refl : Same P I a a
  | step {b c} : Same P I a b → (Base P I b c ∨ Base P I c b) → Same P I a c

theorem Base.mono {P : Prog} {I J : List (Val × Val)} (h : ∀ e ∈ I, e ∈ J) {a b : Nat × Val} (k : Base P I a b) : Base P J a b := by
  cases k with
  | aa h => exact .aa h
  | intro m h1 h2 => exact .intro (h _ m) h1 h2

/-- What is true of the graph after any number of calls; `T` says which pointer, as seen in which function, a vertex is. -/
structure Inv (P : Prog) (s : St) (I : List (Val × Val)) (T : List (Nat × Val)) : Prop where
  verts : T.map (·.2) = s.verts
  nodup : T.Nodup
  mem : ∀ f x, (f, x) ∈ T ↔ f ∈ s.fns ∧ x ∈ P.ptrs f
  keys : (s.vmap.map (·.1)).Nodup
  vm : ∀ x i, (x, i) ∈ s.vmap → ∃ f, T[i]? = some (f, x)
  dom : ∀ f ∈ s.fns, ∀ x ∈ P.ptrs f, ∃ i, (x, i) ∈ s.vmap
  edge : ∀ e ∈ s.edges, e.2.2 = none ∧ ∃ a b, T[e.1]? = some a ∧ T[e.2.1]? = some b ∧ (Base P I a b ∨ a = b)
  aa : ∀ f ∈ s.fns, ∀ x y, x ≠ y → P.aa f x y = true → ∃ i j, T[i]? = some (f, x) ∧ T[j]? = some (f, y) ∧ j ∈ s.adj i
  intro : ∀ x y, (x, y) ∈ I → ∃ i j f g, Local P f x ∧ Local P g y ∧ T[i]? = some (f, x) ∧ T[j]? = some (g, y) ∧ j ∈ s.adj i

theorem find_mem {m : List (Val × Nat)} {v : Val} {i : Nat} (h : find m v = some i) : (v, i) ∈ m := by
  unfold find at h
  cases hf : m.find? fun e => e.1 = v with
  | none => rw [hf] at h; exact nomatch h
  | some e =>
    rw [hf] at h
    have h1 := List.find?_some hf
    have h2 := List.mem_of_find?_eq_some hf
    rw [decide_eq_true_iff] at h1
    have h3 : e.2 = i := Option.some.inj h
    rw [← h1, ← h3]; exact h2

theorem find_isSome {m : List (Val × Nat)} {v : Val} : (find m v).isSome = true ↔ ∃ i, (v, i) ∈ m := by
  constructor
  · intro h
    obtain ⟨i, hi⟩ := Option.isSome_iff_exists.1 h
    exact ⟨i, find_mem hi⟩
  · rintro ⟨i, hi⟩
    unfold find
    rw [Option.isSome_map, List.find?_isSome]
    exact ⟨(v, i), hi, decide_eq_true rfl⟩

theorem mem_unique {m : List (Val × Nat)} (hk : (m.map (·.1)).Nodup) {v : Val} {i j : Nat} (hi : (v, i) ∈ m) (hj : (v, j) ∈ m) :
    i = j := by
  induction m with
  | nil => exact nomatch hi
  | cons e m ih =>
    rw [List.map_cons, List.nodup_cons] at hk
    rcases List.mem_cons.1 hi with hi | hi <;> rcases List.mem_cons.1 hj with hj | hj
    · exact congrArg Prod.snd (hi.trans hj.symm)
    · exact absurd (List.mem_map.2 ⟨(v, j), hj, show v = e.1 from congrArg Prod.fst hi⟩) hk.1
    · exact absurd (List.mem_map.2 ⟨(v, i), hi, show v = e.1 from congrArg Prod.fst hj⟩) hk.1
    · exact ih hk.2 hi hj

theorem find_iff {m : List (Val × Nat)} (hk : (m.map (·.1)).Nodup) {v : Val} {i : Nat} : find m v = some i ↔ (v, i) ∈ m := by
  refine ⟨find_mem, fun h => ?_⟩
  obtain ⟨j, hj⟩ := Option.isSome_iff_exists.1 (find_isSome.2 ⟨i, h⟩)
  rw [hj, mem_unique hk (find_mem hj) h]

theorem mem_assign {m : List (Val × Nat)} {v : Val} {n : Nat} {x : Val} {i : Nat} :
    (x, i) ∈ assign m v n ↔ (x ≠ v ∧ (x, i) ∈ m) ∨ (x = v ∧ i = n) := by
  unfold assign
  split
  · rename_i hs
    obtain ⟨j, hj⟩ := find_isSome.1 hs
    rw [List.mem_map]
    constructor
    · rintro ⟨e, he, h⟩
      by_cases hv : e.1 = v
      · rw [if_pos hv] at h
        exact .inr ⟨(congrArg Prod.fst h).symm, (congrArg Prod.snd h).symm⟩
      · rw [if_neg hv] at h
        subst h
        exact .inl ⟨hv, he⟩
    · rintro (⟨hv, h⟩ | ⟨h1, h2⟩)
      · exact ⟨(x, i), h, if_neg hv⟩
      · exact ⟨(v, j), hj, by rw [if_pos rfl, h1, h2]⟩
  · rename_i hs
    rw [List.mem_append, List.mem_singleton]
    constructor
    · rintro (h | h)
      · exact .inl ⟨fun e => hs (find_isSome.2 ⟨i, e ▸ h⟩), h⟩
      · exact .inr ⟨congrArg Prod.fst h, congrArg Prod.snd h⟩
    · rintro (⟨_, h⟩ | ⟨h1, h2⟩)
      · exact .inl h
      · exact .inr (by rw [h1, h2])

theorem keys_assign {m : List (Val × Nat)} (hk : (m.map (·.1)).Nodup) (v : Val) (n : Nat) : ((assign m v n).map (·.1)).Nodup := by
  unfold assign
  split
  · have : (m.map fun e => if e.1 = v then (v, n) else e).map (·.1) = m.map (·.1) := by
      rw [List.map_map]
      apply List.map_congr_left
      intro e _
      show (if e.1 = v then (v, n) else e).1 = e.1
      split
      · rename_i h; exact h.symm
      · rfl
    rw [this]; exact hk
  · rename_i hs
    rw [List.map_append, List.nodup_append]
    refine ⟨hk, List.nodup_cons.2 ⟨nofun, List.nodup_nil⟩, ?_⟩
    rintro a ha b hb e
    obtain ⟨p, hp, rfl⟩ := List.mem_map.1 ha
    have : b = v := List.mem_singleton.1 hb
    exact hs (find_isSome.2 ⟨p.2, by rw [← this, ← e]; exact hp⟩)

theorem addVerts_ok : ∀ (L : List Val), L.Nodup → ∀ s : St,
    (L.foldl addVert s).fns = s.fns ∧ (L.foldl addVert s).edges = s.edges ∧ (L.foldl addVert s).verts = s.verts ++ L ∧
    ((s.vmap.map (·.1)).Nodup → ((L.foldl addVert s).vmap.map (·.1)).Nodup) ∧
    ∀ x i, (x, i) ∈ (L.foldl addVert s).vmap ↔
      (x ∉ L ∧ (x, i) ∈ s.vmap) ∨ ∃ k, L[k]? = some x ∧ i = s.verts.length + k
  | [], _, s => ⟨rfl, rfl, (List.append_nil _).symm, id, fun x i =>
      ⟨fun h => .inl ⟨nofun, h⟩, fun h => h.elim (·.2) fun ⟨k, h, _⟩ => nomatch h⟩⟩
  | v :: L, hn, s => by
    rw [List.nodup_cons] at hn
    obtain ⟨h1, h2, h3, h4, h5⟩ := addVerts_ok L hn.2 (addVert s v)
    rw [List.foldl_cons]
    refine ⟨h1, h2, ?_, fun hk => h4 (keys_assign hk v _), fun x i => ?_⟩
    · rw [h3]; show s.verts ++ [v] ++ L = _; rw [List.append_assoc]; rfl
    · rw [h5]
      have hlen : (addVert s v).verts.length = s.verts.length + 1 := by
        show (s.verts ++ [v]).length = _
        rw [List.length_append]; rfl
      have hm : (x, i) ∈ (addVert s v).vmap ↔ (x ≠ v ∧ (x, i) ∈ s.vmap) ∨ (x = v ∧ i = s.verts.length) := mem_assign
      rw [hm, hlen]
      constructor
      · rintro (⟨a, ⟨b, c⟩ | ⟨b, c⟩⟩ | ⟨k, a, b⟩)
        · exact .inl ⟨fun h => (List.mem_cons.1 h).elim b a, c⟩
        · exact .inr ⟨0, by rw [b]; rfl, c⟩
        · exact .inr ⟨k + 1, a, by omega⟩
      · rintro (⟨a, c⟩ | ⟨k, a, b⟩)
        · exact .inl ⟨fun h => a (List.mem_cons_of_mem _ h), .inl ⟨fun h => a (h ▸ List.mem_cons_self), c⟩⟩
        · cases k with
          | zero =>
            have e : v = x := Option.some.inj a
            exact .inl ⟨e ▸ hn.1, .inr ⟨e.symm, b⟩⟩
          | succ k => exact .inr ⟨k, a, by omega⟩

theorem mem_pairs {l : List (Val × Nat)} {a b : Val × Nat} (h : (a, b) ∈ pairs l) : a ∈ l ∧ b ∈ l := by
  induction l with
  | nil => exact nomatch h
  | cons c l ih =>
    rw [pairs, List.mem_append] at h
    rcases h with h | h
    · obtain ⟨d, hd, e⟩ := List.mem_map.1 h
      have e1 : c = a := congrArg Prod.fst e
      have e2 : d = b := congrArg Prod.snd e
      exact ⟨e1 ▸ List.mem_cons_self, e2 ▸ List.mem_cons_of_mem _ hd⟩
    · exact ⟨List.mem_cons_of_mem _ (ih h).1, List.mem_cons_of_mem _ (ih h).2⟩

theorem pairs_mem {l : List (Val × Nat)} {a b : Val × Nat} (ha : a ∈ l) (hb : b ∈ l) (hne : a ≠ b) :
    (a, b) ∈ pairs l ∨ (b, a) ∈ pairs l := by
  induction l with
  | nil => exact nomatch ha
  | cons c l ih =>
    rw [pairs, List.mem_append, List.mem_append]
    rcases List.mem_cons.1 ha with ha | ha <;> rcases List.mem_cons.1 hb with hb | hb
    · exact absurd (ha.trans hb.symm) hne
    · exact .inl (.inl (List.mem_map.2 ⟨b, hb, by rw [ha]⟩))
    · exact .inr (.inl (List.mem_map.2 ⟨a, ha, by rw [hb]⟩))
    · exact (ih ha hb).imp .inr .inr

theorem adj_mono {s s' : St} (h : ∀ e ∈ s.edges, e ∈ s'.edges) {u v : Nat} (k : v ∈ s.adj u) : v ∈ s'.adj u := by
  obtain ⟨e, he, r⟩ := mem_adj.1 k
  exact mem_adj.2 ⟨e, h e he, r⟩

theorem getElem?_left {α} {T L : List α} {i : Nat} {a : α} (h : T[i]? = some a) : (T ++ L)[i]? = some a := by
  obtain ⟨hi, _⟩ := List.getElem?_eq_some_iff.1 h
  rw [List.getElem?_append_left hi, h]

theorem Inv.compute {P : Prog} (hf : Fits P) {s : St} {I T} (h : Inv P s I T) (f : Nat) :
    ∃ T', Inv P (compute P f s) I T' ∧ f ∈ (compute P f s).fns ∧ ∀ g, g ∈ (compute P f s).fns ↔ g = f ∨ g ∈ s.fns := by
  unfold AliasGraph.compute
  split
  · rename_i hm
    exact ⟨T, h, hm, fun g => ⟨.inr, fun k => k.elim (· ▸ hm) id⟩⟩
  rename_i hm
  obtain ⟨h1, h2, h3, h4, h5⟩ := addVerts_ok (P.ptrs f) (hf.nodup f) { s with fns := s.fns ++ [f] }
  generalize hs1 : (P.ptrs f).foldl addVert { s with fns := s.fns ++ [f] } = s1 at h1 h2 h3 h4 h5
  have h1' : s1.fns = s.fns ++ [f] := h1
  have h2' : s1.edges = s.edges := h2
  have h3' : s1.verts = s.verts ++ P.ptrs f := h3
  have h5' : ∀ x i, (x, i) ∈ s1.vmap ↔ (x ∉ P.ptrs f ∧ (x, i) ∈ s.vmap) ∨ ∃ k, (P.ptrs f)[k]? = some x ∧ i = s.verts.length + k := h5
  have hkeys : (s1.vmap.map (·.1)).Nodup := h4 h.keys
  have hlen : T.length = s.verts.length := by rw [← h.verts, List.length_map]
  have hfns : ∀ g, g ∈ s1.fns ↔ g = f ∨ g ∈ s.fns := fun g => by
    rw [h1', List.mem_append, List.mem_singleton, Or.comm]
  have hnew : ∀ k x, (P.ptrs f)[k]? = some x → (T ++ (P.ptrs f).map fun x => (f, x))[s.verts.length + k]? = some (f, x) := by
    intro k x hk
    rw [List.getElem?_append_right (by omega), List.getElem?_map]
    have : s.verts.length + k - T.length = k := by omega
    rw [this, hk]; rfl
  show ∃ T', Inv P { s1 with edges := s1.edges ++ (pairs s1.vmap).filterMap (edgeFor P f) } I T' ∧ f ∈ s1.fns ∧ ∀ g, g ∈ s1.fns ↔ _
  have hmono : ∀ e ∈ s.edges, e ∈ s1.edges ++ (pairs s1.vmap).filterMap (edgeFor P f) := fun e he =>
    List.mem_append.2 (.inl (h2'.symm ▸ he))
  refine ⟨T ++ (P.ptrs f).map fun x => (f, x), ⟨?_, ?_, ?_, hkeys, ?_, ?_, ?_, ?_, ?_⟩, (hfns f).2 (.inl rfl), hfns⟩
  · show _ = s1.verts
    rw [List.map_append, h.verts, h3', List.map_map]
    congr 1
    exact List.map_id _
  · rw [List.nodup_append]
    refine ⟨h.nodup, ?_, ?_⟩
    · have : ∀ l : List Val, l.Nodup → (l.map fun x => (f, x)).Nodup := fun l => by
        induction l with
        | nil => exact fun _ => List.nodup_nil
        | cons a l ih =>
          intro hn
          rw [List.nodup_cons] at hn
          rw [List.map_cons, List.nodup_cons]
          refine ⟨fun hm => ?_, ih hn.2⟩
          obtain ⟨b, hb, e⟩ := List.mem_map.1 hm
          exact hn.1 ((show b = a from congrArg Prod.snd e) ▸ hb)
      exact this _ (hf.nodup f)
    · rintro a ha b hb rfl
      obtain ⟨x, _, rfl⟩ := List.mem_map.1 hb
      exact hm ((h.mem f x).1 ha).1
  · intro g x
    rw [List.mem_append, h.mem, List.mem_map]
    show _ ↔ g ∈ s1.fns ∧ _
    rw [hfns]
    constructor
    · rintro (⟨a, b⟩ | ⟨y, hy, e⟩)
      · exact ⟨.inr a, b⟩
      · have e1 := congrArg Prod.fst e
        have e2 := congrArg Prod.snd e
        exact ⟨.inl e1.symm, by rw [← show f = g from e1, ← show y = x from e2]; exact hy⟩
    · rintro ⟨rfl | a, b⟩
      · exact .inr ⟨x, b, rfl⟩
      · exact .inl ⟨a, b⟩
  · intro x i hx
    rcases (h5' x i).1 hx with ⟨_, hx⟩ | ⟨k, hk, rfl⟩
    · obtain ⟨g, hg⟩ := h.vm x i hx
      exact ⟨g, getElem?_left hg⟩
    · exact ⟨f, hnew k x hk⟩
  · intro g hg x hx
    by_cases hxf : x ∈ P.ptrs f
    · obtain ⟨k, hk⟩ := List.mem_iff_getElem?.1 hxf
      exact ⟨_, (h5' x _).2 (.inr ⟨k, hk, rfl⟩)⟩
    · rcases (hfns g).1 hg with rfl | hg
      · exact absurd hx hxf
      · obtain ⟨i, hi⟩ := h.dom g hg x hx
        exact ⟨i, (h5' x i).2 (.inl ⟨hxf, hi⟩)⟩
  · intro e he
    rcases List.mem_append.1 he with he | he
    · obtain ⟨a, x, y, hx, hy, r⟩ := h.edge e (h2' ▸ he)
      exact ⟨a, x, y, getElem?_left hx, getElem?_left hy, r⟩
    · obtain ⟨⟨⟨x, i⟩, y, j⟩, hp, hE⟩ := List.mem_filterMap.1 he
      unfold edgeFor at hE
      split at hE
      · rename_i haa
        have haa' : P.aa f x y = true := haa
        obtain ⟨hx, hy⟩ := hf.inner haa'
        obtain ⟨mx, my⟩ := mem_pairs hp
        have e' : e = (i, j, none) := (Option.some.inj hE).symm
        subst e'
        rcases (h5' x i).1 mx with ⟨nx, _⟩ | ⟨k, hk, rfl⟩
        · exact absurd hx nx
        rcases (h5' y j).1 my with ⟨ny, _⟩ | ⟨l, hl, rfl⟩
        · exact absurd hy ny
        exact ⟨rfl, (f, x), (f, y), hnew k x hk, hnew l y hl, .inl (.aa haa')⟩
      · exact nomatch hE
  · intro g hg x y hne haa
    rcases (hfns g).1 hg with rfl | hg
    · obtain ⟨hx, hy⟩ := hf.inner haa
      obtain ⟨k, hk⟩ := List.mem_iff_getElem?.1 hx
      obtain ⟨l, hl⟩ := List.mem_iff_getElem?.1 hy
      refine ⟨_, _, hnew k x hk, hnew l y hl, mem_adj.2 ?_⟩
      rcases pairs_mem ((h5' x _).2 (.inr ⟨k, hk, rfl⟩)) ((h5' y _).2 (.inr ⟨l, hl, rfl⟩))
        (fun e => hne (congrArg Prod.fst e)) with hp | hp
      · exact ⟨(s.verts.length + k, s.verts.length + l, none), List.mem_append.2 (.inr (List.mem_filterMap.2 ⟨_, hp, if_pos haa⟩)),
          .inl ⟨rfl, rfl⟩⟩
      · exact ⟨(s.verts.length + l, s.verts.length + k, none),
          List.mem_append.2 (.inr (List.mem_filterMap.2 ⟨_, hp, if_pos (hf.symm haa)⟩)), .inr ⟨rfl, rfl⟩⟩
    · obtain ⟨i, j, hi, hj, r⟩ := h.aa g hg x y hne haa
      exact ⟨i, j, getElem?_left hi, getElem?_left hj, adj_mono hmono r⟩
  · intro x y hxy
    obtain ⟨i, j, f, g, lx, ly, hi, hj, r⟩ := h.intro x y hxy
    exact ⟨i, j, f, g, lx, ly, getElem?_left hi, getElem?_left hj, adj_mono hmono r⟩

/-- The vertex of a pointer of an analysed function. -/
theorem Inv.slot {P : Prog} (hf : Fits P) {s : St} {I T} (h : Inv P s I T) {f : Nat} {v : Val} (hv : Local P f v)
    (hm : f ∈ s.fns) : ∃ i, slot v s = (i, s) ∧ find s.vmap v = some i ∧ T[i]? = some (f, v) := by
  obtain ⟨i, hi⟩ := h.dom f hm v hv.2
  have hfi := (find_iff h.keys).2 hi
  obtain ⟨g, hg⟩ := h.vm v i hi
  have hgm := (h.mem g v).1 (List.mem_of_getElem? hg)
  have e : f = g := hf.own hgm.2 hv.1
  subst e
  refine ⟨i, ?_, hfi, hg⟩
  unfold AliasGraph.slot
  rw [hfi]

theorem Inv.init (P : Prog) : Inv P {} [] [] where
  verts := rfl
  nodup := List.nodup_nil
  mem := fun _ _ => ⟨nofun, fun h => nomatch h.1⟩
  keys := List.nodup_nil
  vm := nofun
  dom := nofun
  edge := nofun
  aa := nofun
  intro := nofun

theorem Inv.introduce {P : Prog} (hf : Fits P) {s : St} {I T} (h : Inv P s I T) {f g : Nat} {v w : Val} (hv : Local P f v)
    (hw : Local P g w) : ∃ s' T', introduce P v w none s = some s' ∧ Inv P s' (I ++ [(v, w)]) T' ∧
      ∀ k, k ∈ s'.fns ↔ k = f ∨ k = g ∨ k ∈ s.fns := by
  obtain ⟨T1, h1, m1, n1⟩ := h.compute hf f
  obtain ⟨T2, h2, m2, n2⟩ := h1.compute hf g
  generalize hs2 : AliasGraph.compute P g (AliasGraph.compute P f s) = s2 at h2 m2 n2
  obtain ⟨i, si, _, ti⟩ := h2.slot hf hv ((n2 f).2 (.inr m1))
  obtain ⟨j, sj, _, tj⟩ := h2.slot hf hw m2
  have hne : s2.verts ≠ [] := by
    intro e
    have : T2 = [] := List.map_eq_nil_iff.1 (h2.verts.trans e)
    rw [this] at ti; exact nomatch ti
  have hcalc : AliasGraph.introduce P v w none s = some { s2 with edges := s2.edges ++ [(i, j, none)] } := by
    unfold AliasGraph.introduce computeVal computeFn
    simp only [Option.bind_some, hv.1, hw.1, Option.map_some, Option.bind_eq_bind, hs2, si, sj, if_neg hne]
  refine ⟨_, T2, hcalc, ⟨h2.verts, h2.nodup, h2.mem, h2.keys, h2.vm, h2.dom, ?_, ?_, ?_⟩, fun k => ?_⟩
  · intro e he
    rcases List.mem_append.1 he with he | he
    · obtain ⟨a, x, y, hx, hy, r⟩ := h2.edge e he
      exact ⟨a, x, y, hx, hy, r.imp (Base.mono fun _ k => List.mem_append.2 (.inl k)) id⟩
    · have : e = (i, j, none) := List.mem_singleton.1 he
      subst this
      exact ⟨rfl, (f, v), (g, w), ti, tj, .inl (.intro (List.mem_append.2 (.inr (List.mem_singleton.2 rfl))) hv hw)⟩
  · intro k hk x y hne haa
    obtain ⟨a, b, ha, hb, r⟩ := h2.aa k hk x y hne haa
    exact ⟨a, b, ha, hb, adj_mono (fun e he => List.mem_append.2 (.inl he)) r⟩
  · intro x y hxy
    rcases List.mem_append.1 hxy with hxy | hxy
    · obtain ⟨a, b, c, d, lx, ly, ha, hb, r⟩ := h2.intro x y hxy
      exact ⟨a, b, c, d, lx, ly, ha, hb, adj_mono (fun e he => List.mem_append.2 (.inl he)) r⟩
    · have e := List.mem_singleton.1 hxy
      have e1 : x = v := congrArg Prod.fst e
      have e2 : y = w := congrArg Prod.snd e
      subst e1 e2
      exact ⟨i, j, f, g, hv, hw, ti, tj, mem_adj.2 ⟨(i, j, none), List.mem_append.2 (.inr (List.mem_singleton.2 rfl)), .inl ⟨rfl, rfl⟩⟩⟩
  · show k ∈ s2.fns ↔ _
    rw [n2, n1]
    constructor
    · rintro (h | h | h)
      · exact .inr (.inl h)
      · exact .inl h
      · exact .inr (.inr h)
    · rintro (h | h | h)
      · exact .inr (.inl h)
      · exact .inl h
      · exact .inr (.inr h)

theorem Inv.wf {P : Prog} {s : St} {I T} (h : Inv P s I T) : s.Wf := fun e he => by
  obtain ⟨_, a, b, ha, hb, _⟩ := h.edge e he
  have hl : T.length = s.verts.length := by rw [← h.verts, List.length_map]
  exact ⟨hl ▸ (List.getElem?_eq_some_iff.1 ha).1, hl ▸ (List.getElem?_eq_some_iff.1 hb).1⟩

theorem Inv.plain {P : Prog} {s : St} {I T} (h : Inv P s I T) : s.Plain := fun e he => (h.edge e he).1

theorem nodup_idx {α} : ∀ {T : List α}, T.Nodup → ∀ {i j : Nat} {a : α}, T[i]? = some a → T[j]? = some a → i = j
  | b :: T, hn, 0, 0, _, _, _ => rfl
  | b :: T, hn, 0, j + 1, a, hi, hj => by
    have e : b = a := Option.some.inj hi
    exact absurd (e ▸ List.mem_of_getElem? (show T[j]? = some a from hj)) (List.nodup_cons.1 hn).1
  | b :: T, hn, i + 1, 0, a, hi, hj => by
    have e : b = a := Option.some.inj hj
    exact absurd (e ▸ List.mem_of_getElem? (show T[i]? = some a from hi)) (List.nodup_cons.1 hn).1
  | b :: T, hn, i + 1, j + 1, a, hi, hj => congrArg (· + 1) (nodup_idx (List.nodup_cons.1 hn).2 (i := i) (j := j) hi hj)

/-- The paths of the graph are the aliases. -/
theorem Inv.path {P : Prog} {s : St} {I T} (h : Inv P s I T) {i : Nat} {a : Nat × Val} (hi : T[i]? = some a) (b : Nat × Val) :
    (∃ j, Path s i j ∧ T[j]? = some b) ↔ Same P I a b := by
  constructor
  · rintro ⟨j, hp, hj⟩
    induction hp generalizing b with
    | refl => rw [hi] at hj; exact Option.some.inj hj ▸ .refl
    | step _ e ih =>
      obtain ⟨e, he, r⟩ := mem_adj.1 e
      obtain ⟨_, c, d, hc, hd, hb⟩ := h.edge e he
      rcases r with ⟨r1, r2⟩ | ⟨r1, r2⟩
      · have e1 := ih c (r1 ▸ hc)
        rw [r2, hj] at hd
        obtain rfl := Option.some.inj hd
        exact hb.elim (fun hb => e1.step (.inl hb)) fun hb => hb ▸ e1
      · have e1 := ih d (r2 ▸ hd)
        rw [r1, hj] at hc
        obtain rfl := Option.some.inj hc
        exact hb.elim (fun hb => e1.step (.inr hb)) fun hb => hb ▸ e1
  · intro hs
    induction hs with
    | refl => exact ⟨i, .refl, hi⟩
    | @step b c _ hb ih =>
      obtain ⟨j, hp, hj⟩ := ih
      have hm : b ∈ T := List.mem_of_getElem? hj
      rcases hb with hb | hb
      · cases hb with
        | @aa f x y haa =>
          by_cases hne : x = y
          · exact ⟨j, hp, hne ▸ hj⟩
          obtain ⟨k, l, hk, hl, r⟩ := h.aa f ((h.mem f x).1 hm).1 x y hne haa
          obtain rfl := nodup_idx h.nodup hj hk
          exact ⟨l, hp.step r, hl⟩
        | @intro f g x y hI lx ly =>
          obtain ⟨k, l, f', g', lx', ly', hk, hl, r⟩ := h.intro x y hI
          obtain rfl : f = f' := Option.some.inj (lx.1.symm.trans lx'.1)
          obtain rfl : g = g' := Option.some.inj (ly.1.symm.trans ly'.1)
          obtain rfl := nodup_idx h.nodup hj hk
          exact ⟨l, hp.step r, hl⟩
      · cases hb with
        | @aa f x y haa =>
          by_cases hne : x = y
          · exact ⟨j, hp, hne ▸ hj⟩
          obtain ⟨k, l, hk, hl, r⟩ := h.aa f ((h.mem f y).1 hm).1 x y hne haa
          obtain rfl := nodup_idx h.nodup hj hl
          exact ⟨k, hp.step (adj_symm r), hk⟩
        | @intro f g x y hI lx ly =>
          obtain ⟨k, l, f', g', lx', ly', hk, hl, r⟩ := h.intro x y hI
          obtain rfl : f = f' := Option.some.inj (lx.1.symm.trans lx'.1)
          obtain rfl : g = g' := Option.some.inj (ly.1.symm.trans ly'.1)
          obtain rfl := nodup_idx h.nodup hj hl
          exact ⟨k, hp.step (adj_symm r), hk⟩

theorem sites_eq {P : Prog} {f : Nat} {v : Val} {s : St} {i : Nat} (hv : retrieveFunction v = some f)
    (hs : slot v (compute P f s) = (i, compute P f s)) :
    sites P v s = ((compute P f s).dfs P ((compute P f s).verts.length + 1) [] i ([], [])).bind fun t => some (t.2, compute P f s) := by
  unfold sites computeVal computeFn
  simp only [Option.bind_some, hv, Option.map_some, Option.bind_eq_bind, hs]

theorem Inv.sites {P : Prog} (hf : Fits P) {s : St} {I T} (h : Inv P s I T) {f : Nat} {v : Val} (hv : Local P f v) :
    ∃ r, sites P v s = some (r, AliasGraph.compute P f s) ∧
      ∀ x, x ∈ r ↔ P.site x = true ∧ ∃ g, Same P I (f, v) (g, x) := by
  obtain ⟨T1, h1, m1, _⟩ := h.compute hf f
  obtain ⟨i, hs, _, hi⟩ := h1.slot hf hv m1
  have hl : T1.length = (AliasGraph.compute P f s).verts.length := by rw [← h1.verts, List.length_map]
  obtain ⟨t, ht, hr⟩ := search_ok (P := P) h1.wf h1.plain (hl ▸ (List.getElem?_eq_some_iff.1 hi).1)
  refine ⟨t.2, by rw [sites_eq hv.1 hs, ht]; rfl, fun x => ?_⟩
  rw [hr]
  constructor
  · rintro ⟨j, hp, hj, hsite⟩
    rw [← h1.verts, List.getElem?_map] at hj
    cases hT : T1[j]? with
    | none => rw [hT] at hj; exact nomatch hj
    | some b =>
      rw [hT] at hj
      have e : b.2 = x := Option.some.inj hj
      exact ⟨hsite, b.1, by rw [← e]; exact (h1.path hi b).1 ⟨j, hp, hT⟩⟩
  · rintro ⟨hsite, g, hS⟩
    obtain ⟨j, hp, hj⟩ := (h1.path hi (g, x)).2 hS
    exact ⟨j, hp, by rw [← h1.verts, List.getElem?_map, hj]; rfl, hsite⟩

end Phasar.AliasGraph
