import Verif.CFG.GlobalsBuild
/-! # `buildModel` succeeds, and what a second call does -/
namespace Phasar.Globals

open Phasar.StringID (Str ascii)

theorem mapM_congr' {α β : Type} {f g : α → Option β} (l : List α) (h : ∀ x ∈ l, f x = g x) : l.mapM f = l.mapM g := by
  induction l with
  | nil => rfl
  | cons a l ih =>
    rw [List.mapM_cons, List.mapM_cons, h a List.mem_cons_self, ih (fun x hx => h x (List.mem_cons_of_mem _ hx))]

theorem callPlain_congr {m m' : GMod} {f : Nat} (h : sig m' f = sig m f) : callPlain m' f = callPlain m f := by
  unfold callPlain
  unfold sig at h
  cases h1 : fnOf m' f <;> cases h2 : fnOf m f <;> rw [h1, h2] at h <;> simp at h ⊢
  rw [h.2]

theorem callUEntry_congr {m m' : GMod} {g c e : Nat} (h : sig m' e = sig m e) : callUEntry m' g c e = callUEntry m g c e := by
  unfold callUEntry
  unfold sig at h
  cases h1 : fnOf m' e <;> cases h2 : fnOf m e <;> rw [h1, h2] at h <;> simp at h ⊢
  rw [h.1, h.2]

theorem modelBlocks_congr {m m' : GMod} {g c : Nat} {C : List (Nat × Nat)} {es : List Nat} {sel base : Nat}
    (hC : ∀ d ∈ C, sig m' d.2 = sig m d.2) (hE : ∀ e ∈ es, sig m' e = sig m e) :
    modelBlocks m' g c C es sel base = modelBlocks m g c C es sel base := by
  unfold modelBlocks
  rw [mapM_congr' (C.map Prod.snd) (g := callPlain m), mapM_congr' es (g := callUEntry m g c)]
  · intro e he; exact callUEntry_congr (hE e he)
  · intro f hf
    obtain ⟨d, hd, rfl⟩ := List.mem_map.1 hf
    exact callPlain_congr (hC d hd)

theorem callerName_ne (m : GMod) : callerName m ≠ modelName ∧ callerName m ≠ dtorModelName ∧ callerName m ≠ selectorName ∧ callerName m ≠ [] := by
  have h : (callerName m).take 6 = dtorsCallerName.take 6 := List.take_append_of_le_length (by decide)
  refine ⟨fun e => ?_, fun e => ?_, fun e => ?_, fun e => ?_⟩ <;> rw [e] at h <;> revert h <;> decide

/-- The caller of the registered destructors. -/
theorem addCaller_ok {lossless : Nat → Nat → Bool} {m : GMod} {es : List Nat} (hf : Fresh m) (hb : Below m) (hv : Valid m es) :
    (registered m = [] ∧ addCaller lossless m = some (m, collectGlobalDtors m, none)) ∨
    (registered m ≠ [] ∧ ∃ m1, addCaller lossless m = some (m1, collectGlobalDtors m ++ [(0, m.next)], some m.next) ∧
      NewFn m m1 m.next (callerName m) [] [(regEvents lossless m).map callK ++ [.ret]]) := by
  unfold addCaller
  rw [collectRegistered_ok hv.calls]
  simp only [Option.bind_some]
  by_cases hr : registered m = []
  · exact .inl ⟨hr, by rw [if_pos hr]⟩
  · rw [if_neg hr]
    refine .inr ⟨hr, ?_⟩
    obtain ⟨m1, h1, h2, h3⟩ := newFn hb [] (callerName_ne m).2.2.2 (fun g hg => (hf.names g hg).2.2.2)
    refine ⟨addBlocks m1 m.next [(regEvents lossless m).map callK ++ [.ret]], ?_, h3 _⟩
    unfold createDtorCaller
    have h1' : getOrInsert m (dtorsCallerName ++ 46 :: reducedName m.name) [] = some (m1, m.next) := h1
    rw [h1', Option.bind_some, mapM_some (g := fun d => (regEvent lossless m d).toList.map callK)]
    · simp only [Option.map_some, flatten_events, emplace_last]
      rfl
    · intro d hd
      obtain ⟨g, t, hg, hp⟩ := hv.regs d (List.mem_reverse.1 hd)
      refine dtorCall_ok hg hp ?_
      rw [h2.sig hb, if_neg (by have := fn_lt hb hg; omega)]

/-- The cleanup function. -/
theorem buildCleanup_ok {m : GMod} (hb : Below m) {ds : List (Nat × Nat)} (hn : ∀ g ∈ m.fns, g.name ≠ dtorModelName)
    (hd : ∀ d ∈ ds, ∃ n, sig m d.2 = some (n, [])) :
    (∃ d, ds = [d] ∧ buildCleanup m ds = some (m, d.2, false)) ∨
    (ds.length ≠ 1 ∧ ∃ m1, buildCleanup m ds = some (m1, m.next, true) ∧
      NewFn m m1 m.next dtorModelName [] [(ds.map (fun d => ((d.2, []) : Event))).map callK ++ [.ret]]) := by
  by_cases hl : ds.length = 1
  · obtain ⟨d, rfl⟩ := List.length_eq_one_iff.1 hl
    exact .inl ⟨d, rfl, rfl⟩
  · refine .inr ⟨hl, ?_⟩
    obtain ⟨m1, h1, h2, h3⟩ := newFn hb [] (show dtorModelName ≠ [] by decide) hn
    refine ⟨_, ?_, h3 _⟩
    have : buildCleanup m ds = (getOrInsert m dtorModelName []).bind (fun p =>
      ((ds.map Prod.snd).mapM (callPlain p.1)).map (fun ks => (addBlocks p.1 p.2 [ks ++ [.ret]], p.2, true))) := by
      match ds, hl with
      | [], _ => rfl
      | a :: b :: r, _ => rfl
    rw [this, h1, Option.bind_some, mapM_some (g := fun f => callK (f, []))]
    · simp [Function.comp_def]
    · intro f hf
      obtain ⟨d, hd', rfl⟩ := List.mem_map.1 hf
      obtain ⟨n, hs⟩ := hd d hd'
      refine callPlain_ok (n := n) ?_
      obtain ⟨g, hg, _⟩ := sig_some hs
      rw [h2.sig hb, if_neg (by have := fn_lt hb hg; omega), hs]

/-- The model and the selector. -/
theorem buildGlob_ok {m : GMod} (hb : Below m) {cleanup : Nat} {C : List (Nat × Nat)} {es : List Nat}
    (hn : ∀ g ∈ m.fns, g.name ≠ modelName ∧ g.name ≠ selectorName) (hC : ∀ d ∈ C, ∃ n, sig m d.2 = some (n, []))
    (hE : ∀ e ∈ es, ∃ n ps, sig m e = some (n, ps)) (hne : es ≠ []) :
    ∃ m' sel bs, buildGlob m cleanup C es = some (m', m.next) ∧ m.next < m'.next ∧ Grown m m' ∧
      modelBlocks m m.next cleanup C es sel 0 = some bs ∧ kindsOf m' m.next = some bs ∧
      (∀ y, y < m.next → kindsOf m' y = kindsOf m y) ∧ (es.length ≠ 1 → m.next < sel) ∧
      named m' modelName = some (m.next, [0, 1]) ∧ (es.length ≠ 1 → named m' selectorName = some (sel, [])) ∧
      ∀ N, N ≤ m.next → Apart N m → Apart N m' := by
  obtain ⟨m1, h1, h2, -⟩ := newFn hb [0, 1] (show modelName ≠ [] by decide) (fun g hg => (hn g hg).1)
  have hb1 := h2.below hb
  have hlt : ∀ x n ps, sig m x = some (n, ps) → x < m.next := fun x n ps hs => by
    obtain ⟨g, hg, _⟩ := sig_some hs
    exact fn_lt hb hg
  have hcs : ∀ sel, ∃ bs, modelBlocks m m.next cleanup C es sel 0 = some bs := by
    intro sel
    unfold modelBlocks
    rw [mapM_some (g := fun f => callK (f, []))]
    · have : ∃ us, es.mapM (callUEntry m m.next cleanup) = some us := by
        refine ⟨_, mapM_some es (g := fun e => (callUEntry m m.next cleanup e).getD []) (fun e he => ?_)⟩
        obtain ⟨n, ps, hs⟩ := hE e he
        rw [callUEntry_ok hs]; rfl
      obtain ⟨us, hu⟩ := this
      rw [hu]
      exact ⟨_, rfl⟩
    · intro f hf
      obtain ⟨d, hd, rfl⟩ := List.mem_map.1 hf
      obtain ⟨n, hs⟩ := hC d hd
      exact callPlain_ok hs
  have fin : ∀ (q : GMod) (sel : Nat), ((if es.length = 1 then some (m1, 0) else getOrInsert m1 selectorName [])) = some (q, sel) →
      Grown m1 q → (∀ y, y < m.next → sig q y = sig m y) → (∀ y, y ≤ m.next → fnOf q y = fnOf m1 y) →
      (∀ N, N ≤ m.next → Apart N m1 → Apart N q) →
      ∃ bs, buildGlob m cleanup C es = some (addBlocks q m.next bs, m.next) ∧ Grown m (addBlocks q m.next bs) ∧
        modelBlocks m m.next cleanup C es sel 0 = some bs ∧ kindsOf (addBlocks q m.next bs) m.next = some bs ∧
        (∀ y, y < m.next → kindsOf (addBlocks q m.next bs) y = kindsOf m y) ∧ named (addBlocks q m.next bs) modelName = some (m.next, [0, 1]) ∧
        ∀ N, N ≤ m.next → Apart N m → Apart N (addBlocks q m.next bs) := by
    intro q sel hq hg hsig hfn hap
    obtain ⟨bs, hbs⟩ := hcs sel
    have hfx : fnOf q m.next = some ⟨m.next, modelName, [0, 1], true, []⟩ := by
      rw [hfn _ (Nat.le_refl _), h2.fnOf hb, if_pos rfl]
    have hk : kindsOf q m.next = some [] := by unfold kindsOf; rw [hfx]; rfl
    refine ⟨bs, ?_, (h2.grown hb).trans (hg.trans (grown_addBlocks hg.below _ _)), hbs, ?_, ?_, ?_, ?_⟩
    · unfold buildGlob
      rw [if_neg hne, h1, Option.bind_some]
      simp only
      rw [hq, Option.bind_some]
      simp only
      rw [hfx, Option.bind_some]
      simp only [List.length_nil]
      rw [modelBlocks_congr (m := m) (m' := q), hbs]
      · rfl
      · intro d hd
        obtain ⟨n, hs⟩ := hC d hd
        exact hsig _ (hlt _ _ _ hs)
      · intro e he
        obtain ⟨n, ps, hs⟩ := hE e he
        exact hsig _ (hlt _ _ _ hs)
    · rw [kinds_addBlocks, if_pos rfl, hk]; rfl
    · intro y hy
      rw [kinds_addBlocks, if_neg (by omega)]
      unfold kindsOf
      rw [hfn y (by omega), h2.fnOf hb, if_neg (by omega)]
    · refine (fnNamed_addBlocks q _ bs modelName).trans ?_
      exact hg.named _ _ (h2.named_new (by decide) (fun g hg => (hn g hg).1))
    · intro N hN ha
      refine (hap N hN (ha.added h2)).addBlocks hg.below ?_ _ _
      have := hg.next; rw [h2.next] at this; omega
  by_cases hl : es.length = 1
  · obtain ⟨bs, g1, g2, g3, g4, g5, g6, g7⟩ := fin m1 0 (by rw [if_pos hl]) (Grown.refl hb1)
      (fun y hy => by rw [h2.sig hb, if_neg (by omega)]) (fun _ _ => rfl) (fun _ _ h => h)
    refine ⟨_, 0, bs, g1, ?_, g2, g3, g4, g5, fun h => absurd hl h, g6, fun h => absurd hl h, g7⟩
    show m.next < m1.next + _
    rw [h2.next]; omega
  · have hsn : ∀ g ∈ m1.fns, g.name ≠ selectorName := by
      intro g hg
      rw [h2.fns, List.mem_append, List.mem_singleton] at hg
      rcases hg with hg | hg
      · exact (hn g hg).2
      · rw [hg]; exact (by decide : modelName ≠ selectorName)
    obtain ⟨m2, k1, k2, -⟩ := newFn hb1 [] (show selectorName ≠ [] by decide) hsn
    have hx : m1.next = m.next + 1 := h2.next
    obtain ⟨bs, g1, g2, g3, g4, g5, g6, g7⟩ := fin m2 m1.next (by rw [if_neg hl]; exact k1) (k2.grown hb1)
      (fun y hy => by rw [k2.sig hb1, if_neg (by omega), h2.sig hb, if_neg (by omega)])
      (fun y hy => by rw [k2.fnOf hb1, if_neg (by omega)]) (fun N _ h => h.added k2)
    refine ⟨_, m1.next, bs, g1, ?_, g2, g3, g4, g5, fun _ => by omega, g6, fun _ => ?_, g7⟩
    · show m.next < m2.next + _
      rw [k2.next]; omega
    · exact (fnNamed_addBlocks m2 _ bs selectorName).trans (k2.named_new (by decide) hsn)

/-- What a first build establishes. -/
structure First (lossless : Nat → Nat → Bool) (m : GMod) (es : List Nat) (b : Built) (sel c : Nat) : Prop where
  grown : Grown m b.mod
  shape : Shape lossless m b.mod es b.inserted b.model b.cleanup sel c
  nodup : b.inserted.Nodup
  mem : ∀ f ∈ b.inserted, ∃ g, fnOf b.mod f = some g
  apart : Apart m.next b.mod
  sel : es.length ≠ 1 → named b.mod selectorName = some (sel, []) ∧ m.next ≤ sel
  modelNamed : named b.mod modelName = some (b.model, [0, 1])
  ins : b.inserted = (if registered m = [] then [] else [c]) ++
    (if (collectGlobalDtors m).length + (if registered m = [] then 0 else 1) = 1 then [] else [b.cleanup]) ++ [b.model]
  caller : b.caller = if registered m = [] then none else some c
  callerNamed : registered m ≠ [] → named b.mod (callerName m) = some (c, [])
  cleanNamed : (collectGlobalDtors m).length + (if registered m = [] then 0 else 1) ≠ 1 → named b.mod dtorModelName = some (b.cleanup, [])
  cleanOne : ∀ d, collectGlobalDtors m ++ (if registered m = [] then [] else [(0, c)]) = [d] → b.cleanup = d.2

theorem Fresh.below {m : GMod} (h : Fresh m) : Below m := ⟨h.ids, h.insts⟩

theorem Fresh.apart {m : GMod} (h : Fresh m) : Apart m.next m := by
  refine ⟨fun g hg hN => ?_, fun g hg hN => ?_, fun g hg g' _ hN => ?_⟩ <;> · have := h.ids g hg; omega

theorem kinds_fn {m : GMod} {x : Nat} {ks : List (List Kind)} (h : kindsOf m x = some ks) : ∃ g, fnOf m x = some g := by
  unfold kindsOf at h
  obtain ⟨g, hg, _⟩ := Option.map_eq_some_iff.1 h
  exact ⟨g, hg⟩

theorem build_first {lossless : Nat → Nat → Bool} {m : GMod} {es : List Nat} (hf : Fresh m) (hv : Valid m es) :
    ∃ b sel c, buildIR lossless m es = some b ∧ First lossless m es b sel c := by
  have hb := hf.below
  have hsC : ∀ d ∈ collectGlobalCtors m, ∃ n, sig m d.2 = some (n, []) := fun d hd => by
    obtain ⟨g, hg, hp⟩ := hv.ctors d ((ctors_ordered m).mem.1 hd)
    exact ⟨g.name, by rw [sig_of hg, hp]⟩
  have hsD : ∀ d ∈ collectGlobalDtors m, ∃ n, sig m d.2 = some (n, []) := fun d hd => by
    obtain ⟨g, hg, hp⟩ := hv.dtors d ((dtors_ordered m).mem.1 hd)
    exact ⟨g.name, by rw [sig_of hg, hp]⟩
  have hsE : ∀ e ∈ es, ∃ n ps, sig m e = some (n, ps) := fun e he => by
    obtain ⟨g, hg⟩ := hv.entries e he
    exact ⟨g.name, g.params, sig_of hg⟩
  have hlt : ∀ x n ps, sig m x = some (n, ps) → x < m.next := fun x n ps hs => by
    obtain ⟨g, hg, _⟩ := sig_some hs
    exact fn_lt hb hg
  -- the last two stages, from a module `m1` with the destructors `ds`
  have rest : ∀ (m1 : GMod) (ds : List (Nat × Nat)) (cal : Option Nat), addCaller lossless m = some (m1, ds, cal) →
      Grown m m1 → (∀ g ∈ m1.fns, g.name ≠ modelName ∧ g.name ≠ selectorName ∧ g.name ≠ dtorModelName) → Apart m.next m1 →
      (∀ d ∈ ds, ∃ n, sig m1 d.2 = some (n, [])) →
      ∃ b sel bs, buildIR lossless m es = some b ∧ Grown m1 b.mod ∧ Apart m.next b.mod ∧ b.caller = cal ∧
        b.inserted = cal.toList ++ (if ds.length = 1 then [] else [b.cleanup]) ++ [b.model] ∧
        m1.next ≤ b.model ∧ (es.length ≠ 1 → b.model < sel) ∧
        modelBlocks m b.model b.cleanup (collectGlobalCtors m) es sel 0 = some bs ∧ kindsOf b.mod b.model = some bs ∧
        named b.mod modelName = some (b.model, [0, 1]) ∧ (es.length ≠ 1 → named b.mod selectorName = some (sel, [])) ∧
        ((∃ d, ds = [d] ∧ b.cleanup = d.2) ∨ (ds.length ≠ 1 ∧ m1.next ≤ b.cleanup ∧ b.cleanup < b.model ∧
          named b.mod dtorModelName = some (b.cleanup, []) ∧
          kindsOf b.mod b.cleanup = some [(ds.map (fun d => ((d.2, []) : Event))).map callK ++ [.ret]])) := by
    intro m1 ds cal hadd hg1 hn1 ha1 hds
    have stage3 : ∀ (m2 : GMod) (cl : Nat) (ins : Bool), buildCleanup m1 ds = some (m2, cl, ins) → Grown m1 m2 →
        (∀ g ∈ m2.fns, g.name ≠ modelName ∧ g.name ≠ selectorName) → Apart m.next m2 →
        ∃ m3 sel bs, buildIR lossless m es = some ⟨m3, cal.toList ++ (if ins then [cl] else []) ++ [m2.next], m2.next, cl, cal⟩ ∧
          Grown m2 m3 ∧ Apart m.next m3 ∧ (es.length ≠ 1 → m2.next < sel) ∧
          modelBlocks m m2.next cl (collectGlobalCtors m) es sel 0 = some bs ∧ kindsOf m3 m2.next = some bs ∧
          (∀ y, y < m2.next → kindsOf m3 y = kindsOf m2 y) ∧
          named m3 modelName = some (m2.next, [0, 1]) ∧ (es.length ≠ 1 → named m3 selectorName = some (sel, [])) := by
      intro m2 cl ins hcl hg2 hn2 ha2
      have hg02 := hg1.trans hg2
      have hsig : ∀ x n ps, sig m x = some (n, ps) → sig m2 x = some (n, ps) := fun x n ps hs => by
        rw [hg02.sig x (hlt _ _ _ hs), hs]
      obtain ⟨m3, sel, bs, k1, k2, k3, k4, k5, k6, k7, k8, k9, k10⟩ := buildGlob_ok (m := m2) hg2.below (cleanup := cl)
        (C := collectGlobalCtors m) (es := es) hn2
        (fun d hd => by obtain ⟨n, hs⟩ := hsC d hd; exact ⟨n, hsig _ _ _ hs⟩)
        (fun e he => by obtain ⟨n, ps, hs⟩ := hsE e he; exact ⟨n, ps, hsig _ _ _ hs⟩) hv.some_entry
      refine ⟨m3, sel, bs, ?_, k3, k10 _ hg02.next ha2, k7, ?_, k5, k6, k8, k9⟩
      · unfold buildIR
        rw [hadd, Option.bind_some]
        simp only
        rw [hcl, Option.bind_some]
        simp only
        rw [k1]
        rfl
      · rw [modelBlocks_congr (m := m2) (m' := m)] at *
        · exact k4
        · intro d hd
          obtain ⟨n, hs⟩ := hsC d hd
          rw [hs, hsig _ _ _ hs]
        · intro e he
          obtain ⟨n, ps, hs⟩ := hsE e he
          rw [hs, hsig _ _ _ hs]
    rcases buildCleanup_ok hg1.below (fun g hg => (hn1 g hg).2.2) hds with ⟨d, hd, hcl⟩ | ⟨hl, m2, hcl, hnew⟩
    · obtain ⟨m3, sel, bs, k1, k2, k3, k4, k5, k6, k7, k8, k9⟩ := stage3 m1 d.2 false hcl (Grown.refl hg1.below)
        (fun g hg => ⟨(hn1 g hg).1, (hn1 g hg).2.1⟩) ha1
      exact ⟨_, sel, bs, k1, k2, k3, rfl, by simp [hd], Nat.le_refl _, k4, k5, k6, k8, k9, .inl ⟨d, hd, rfl⟩⟩
    · obtain ⟨m3, sel, bs, k1, k2, k3, k4, k5, k6, k7, k8, k9⟩ := stage3 m2 m1.next true hcl hnew.grown
        (fun g hg => by
          rcases hnew.names g hg with h | ⟨g', hg', h⟩
          · rw [h]; decide
          · rw [← h]; exact ⟨(hn1 g' hg').1, (hn1 g' hg').2.1⟩) (hnew.apart _ hg1.next ha1)
      refine ⟨_, sel, bs, k1, hnew.grown.trans k2, k3, rfl, by simp [hl], ?_, k4, k5, k6, k8, k9, .inr ⟨hl, Nat.le_refl _, hnew.next,
        k2.named _ _ hnew.named, ?_⟩⟩
      · exact Nat.le_of_lt hnew.next
      · show kindsOf m3 m1.next = _
        rw [k7 _ hnew.next, hnew.kinds, if_pos rfl]
  rcases addCaller_ok (lossless := lossless) hf hb hv with ⟨hr, hadd⟩ | ⟨hr, m1, hadd, hnew⟩
  · obtain ⟨b, sel, bs, k1, k2, k3, k4, k5, k6, k7, k8, k9, k10, k11, k12⟩ := rest m _ none hadd (Grown.refl hb)
      (fun g hg => ⟨(hf.names g hg).1, (hf.names g hg).2.2.1, (hf.names g hg).2.1⟩) hf.apart hsD
    refine ⟨b, sel, 0, k1, ?_⟩
    rcases k12 with ⟨d, hd, hcl⟩ | ⟨hl, c1, c2, c3, c4⟩
    · have hins : b.inserted = [b.model] := by rw [k5, hd]; rfl
      refine ⟨k2, ⟨?_, ?_, ⟨by rw [hins]; simp, bs, [], k8, by simpa using k9⟩, fun h => absurd hr h, .inl ⟨hr, d.1, by rw [hd, hcl]⟩⟩, ?_, ?_,
        k3, fun h => ⟨k11 h, by have := k7 h; omega⟩, k10, by simp [hins, hr, hd], by simp [k4, hr], fun h => absurd hr h, ?_, ?_⟩
      · rw [hins]; intro f hf; rw [List.mem_singleton.1 hf]; exact k6
      · intro hl2
        have := k7 hl2
        rw [hins]; simp; omega
      · rw [hins]; simp
      · rw [hins]; intro f hf; rw [List.mem_singleton.1 hf]; exact kinds_fn k9
      · intro h; simp [hr, hd] at h
      · intro d' hd'; rw [hd, if_pos hr] at hd'; simp at hd'; rw [hcl, hd']
    · have hins : b.inserted = [b.cleanup, b.model] := by rw [k5, if_neg hl]; rfl
      refine ⟨k2, ⟨?_, ?_, ⟨by rw [hins]; simp, bs, [], k8, by simpa using k9⟩, fun h => absurd hr h, .inr (.inr ⟨by rw [hins]; simp, [], ?_⟩)⟩, ?_, ?_,
        k3, fun h => ⟨k11 h, by have := k7 h; omega⟩, k10, by simp [hins, hr, hl], by simp [k4, hr], fun h => absurd hr h, fun _ => c3,
        fun d' hd' => absurd (by rw [if_pos hr, List.append_nil] at hd'; rw [hd']; rfl) hl⟩
      · rw [hins]; intro f hf
        simp only [List.mem_cons, List.not_mem_nil, or_false] at hf
        rcases hf with e | e <;> rw [e] <;> omega
      · intro hl2
        have := k7 hl2
        rw [hins]; simp; omega
      · rw [c4]; simp [dtorEvents, hr]
      · rw [hins]; simp; omega
      · rw [hins]; intro f hf
        simp only [List.mem_cons, List.not_mem_nil, or_false] at hf
        rcases hf with e | e
        · rw [e]; exact kinds_fn c4
        · rw [e]; exact kinds_fn k9
  · obtain ⟨b, sel, bs, k1, k2, k3, k4, k5, k6, k7, k8, k9, k10, k11, k12⟩ := rest m1 _ (some m.next) hadd hnew.grown
      (fun g hg => by
        rcases hnew.names g hg with h | ⟨g', hg', h⟩
        · rw [h]; exact ⟨(callerName_ne m).1, (callerName_ne m).2.2.1, (callerName_ne m).2.1⟩
        · rw [← h]; exact ⟨(hf.names g' hg').1, (hf.names g' hg').2.2.1, (hf.names g' hg').2.1⟩)
      (hnew.apart _ (Nat.le_refl _) hf.apart)
      (fun d hd => by
        rcases List.mem_append.1 hd with hd | hd
        · obtain ⟨n, hs⟩ := hsD d hd
          exact ⟨n, by rw [hnew.sig, if_neg (by have := hlt _ _ _ hs; omega), hs]⟩
        · rw [List.mem_singleton.1 hd]
          exact ⟨callerName m, by rw [hnew.sig, if_pos rfl]⟩)
    have hnx := hnew.next
    have hck : kindsOf m1 m.next = some [(regEvents lossless m).map callK ++ [.ret]] := by rw [hnew.kinds, if_pos rfl]
    obtain ⟨ex, hex⟩ := k2.kinds hck
    refine ⟨b, sel, m.next, k1, ?_⟩
    rcases k12 with ⟨d, hd, hcl⟩ | ⟨hl, c1, c2, c3, c4⟩
    · have hnil : collectGlobalDtors m = [] := by
        cases hcd : collectGlobalDtors m with
        | nil => rfl
        | cons a l => rw [hcd] at hd; simp at hd
      have hcl' : b.cleanup = m.next := by rw [hnil] at hd; simp at hd; rw [hcl, ← hd]
      have hins : b.inserted = [m.next, b.model] := by rw [k5, hnil]; rfl
      refine ⟨hnew.grown.trans k2, ⟨?_, ?_, ⟨by rw [hins]; simp, bs, [], k8, by simpa using k9⟩, fun _ => ⟨by rw [hins]; simp, ex, hex⟩,
        .inr (.inl ⟨hr, hnil, hcl'⟩)⟩, ?_, ?_, k3, fun h => ⟨k11 h, by have := k7 h; omega⟩, k10, by simp [hins, hr, hnil], by simp [k4, hr],
        fun _ => k2.named _ _ hnew.named, ?_, ?_⟩
      · rw [hins]; intro f hf
        simp only [List.mem_cons, List.not_mem_nil, or_false] at hf
        rcases hf with e | e <;> rw [e] <;> omega
      · intro hl2
        have := k7 hl2
        rw [hins]; simp; omega
      · rw [hins]; simp; omega
      · rw [hins]; intro f hf
        simp only [List.mem_cons, List.not_mem_nil, or_false] at hf
        rcases hf with e | e
        · rw [e]; exact kinds_fn hex
        · rw [e]; exact kinds_fn k9
      · intro h; simp [hr, hnil] at h
      · intro d' hd'; rw [hnil, if_neg hr] at hd'; simp at hd'; rw [hcl', ← hd']
    · have hl' : (collectGlobalDtors m).length ≠ 0 := by simpa using hl
      have hins : b.inserted = [m.next, b.cleanup, b.model] := by rw [k5, if_neg hl]; rfl
      refine ⟨hnew.grown.trans k2, ⟨?_, ?_, ⟨by rw [hins]; simp, bs, [], k8, by simpa using k9⟩, fun _ => ⟨by rw [hins]; simp, ex, hex⟩,
        .inr (.inr ⟨by rw [hins]; simp, [], ?_⟩)⟩, ?_, ?_, k3, fun h => ⟨k11 h, by have := k7 h; omega⟩, k10, ?_, by simp [k4, hr],
        fun _ => k2.named _ _ hnew.named, fun _ => c3, fun d' hd' => absurd (by rw [if_neg hr] at hd'; rw [hd']; rfl) hl⟩
      · rw [hins]; intro f hf
        simp only [List.mem_cons, List.not_mem_nil, or_false] at hf
        rcases hf with e | e | e <;> rw [e] <;> omega
      · intro hl2
        have := k7 hl2
        rw [hins]; simp; omega
      · rw [c4]; simp [dtorEvents, hr]
      · rw [hins]; simp; omega
      · rw [hins]; intro f hf
        simp only [List.mem_cons, List.not_mem_nil, or_false] at hf
        rcases hf with e | e | e
        · rw [e]; exact kinds_fn hex
        · rw [e]; exact kinds_fn c4
        · rw [e]; exact kinds_fn k9
      · rw [hins, if_neg hr, if_neg (by simpa [hr] using hl')]; rfl

/-! ### A second build -/

theorem Shape.grown {lossless : Nat → Nat → Bool} {m m' m'' : GMod} {es inserted : List Nat} {model cleanup sel c : Nat}
    (h : Shape lossless m m' es inserted model cleanup sel c) (hg : Grown m' m'') :
    Shape lossless m m'' es inserted model cleanup sel c := by
  refine ⟨h.big, h.selBig, ?_, ?_, ?_⟩
  · obtain ⟨h1, bs, ex, h2, h3⟩ := h.model
    obtain ⟨ex', e⟩ := hg.kinds h3
    exact ⟨h1, bs, ex ++ ex', h2, by rw [e, List.append_assoc]⟩
  · intro hr
    obtain ⟨h1, ex, h2⟩ := h.caller hr
    obtain ⟨ex', e⟩ := hg.kinds h2
    exact ⟨h1, ex ++ ex', by rw [e, List.cons_append]⟩
  · rcases h.clean with h | h | ⟨h1, ex, h2⟩
    · exact .inl h
    · exact .inr (.inl h)
    · obtain ⟨ex', e⟩ := hg.kinds h2
      exact .inr (.inr ⟨h1, ex ++ ex', by rw [e, List.cons_append]⟩)

theorem second {lossless : Nat → Nat → Bool} {m : GMod} {es es' : List Nat} {b b' : Built} {sel c : Nat} (hv : Valid m es)
    (hf : First lossless m es b sel c) (h : buildIR lossless b.mod es' = some b') :
    Grown b.mod b'.mod ∧ b'.model = b.model ∧ b'.cleanup = b.cleanup ∧ b'.inserted = b.inserted := by
  have hreg : collectRegistered b.mod = some (registered m) := by
    rw [← collectRegistered_ok hv.calls]
    unfold collectRegistered
    rw [hf.grown.rest.2.2.2]
  have hD : collectGlobalDtors b.mod = collectGlobalDtors m := by
    unfold collectGlobalDtors
    rw [hf.grown.rest.2.2.1]
  have hbb := hf.grown.below
  unfold buildIR at h
  obtain ⟨p, hp, h⟩ := Option.bind_eq_some_iff.1 h
  obtain ⟨q, hq, h⟩ := Option.bind_eq_some_iff.1 h
  obtain ⟨r, hr, h⟩ := Option.map_eq_some_iff.1 h
  -- the caller
  have h1 : Grown b.mod p.1 ∧ p.2.1 = collectGlobalDtors m ++ (if registered m = [] then [] else [(0, c)]) ∧
      p.2.2 = if registered m = [] then none else some c := by
    unfold addCaller at hp
    rw [hreg, Option.bind_some] at hp
    by_cases hn : registered m = []
    · rw [if_pos hn] at hp
      injection hp with hp
      subst hp
      exact ⟨Grown.refl hbb, by simp [hD, hn], by simp [hn]⟩
    · rw [if_neg hn] at hp
      obtain ⟨x, hx, hp⟩ := Option.map_eq_some_iff.1 hp
      unfold createDtorCaller at hx
      obtain ⟨y, hy, hx⟩ := Option.bind_eq_some_iff.1 hx
      obtain ⟨ks, _, hx⟩ := Option.map_eq_some_iff.1 hx
      have hname : dtorsCallerName ++ 46 :: reducedName b.mod.name = callerName m := by
        unfold callerName; rw [hf.grown.rest.1]
      rw [hname] at hy
      have := (getOrInsert_grown hbb hy).2 _ (hf.callerNamed hn)
      subst this
      subst hx
      subst hp
      refine ⟨grown_addBlocks hbb _ _, ?_, by simp [hn]⟩
      show emplace _ 0 c (collectGlobalDtors b.mod) = _
      rw [emplace_last, hD, if_neg hn]
  obtain ⟨g1, e1, e2⟩ := h1
  -- the cleanup function
  have hlen : p.2.1.length = (collectGlobalDtors m).length + if registered m = [] then 0 else 1 := by
    rw [e1]; by_cases hn : registered m = [] <;> simp [hn]
  have h2 : Grown p.1 q.1 ∧ q.2.1 = b.cleanup ∧ q.2.2 = decide (p.2.1.length ≠ 1) := by
    by_cases hl : p.2.1.length = 1
    · obtain ⟨d, hd⟩ := List.length_eq_one_iff.1 hl
      rw [hd] at hq
      injection hq with hq
      subst hq
      refine ⟨Grown.refl g1.below, ?_, by simp [hl]⟩
      show d.2 = b.cleanup
      rw [hd] at e1
      exact (hf.cleanOne d e1.symm).symm
    · have hcn := hf.cleanNamed (by rw [← hlen]; exact hl)
      have heq : buildCleanup p.1 p.2.1 = (getOrInsert p.1 dtorModelName []).bind (fun z =>
          ((p.2.1.map Prod.snd).mapM (callPlain z.1)).map (fun ks => (addBlocks z.1 z.2 [ks ++ [.ret]], z.2, true))) := by
        match p.2.1, hl with
        | [], _ => rfl
        | a :: b :: r, _ => rfl
      rw [heq] at hq
      obtain ⟨y, hy, hq⟩ := Option.bind_eq_some_iff.1 hq
      obtain ⟨ks, _, hq⟩ := Option.map_eq_some_iff.1 hq
      have := (getOrInsert_grown g1.below hy).2 _ (g1.named _ _ hcn)
      subst this
      subst hq
      exact ⟨grown_addBlocks g1.below _ _, rfl, by simp [hl]⟩
  obtain ⟨g2, e3, e4⟩ := h2
  -- the model
  have h3 : Grown q.1 r.1 ∧ r.2 = b.model := by
    unfold buildGlob at hr
    split at hr
    · cases hr
    · obtain ⟨y, hy, hr⟩ := Option.bind_eq_some_iff.1 hr
      obtain ⟨z, hz, hr⟩ := Option.bind_eq_some_iff.1 hr
      obtain ⟨g, _, hr⟩ := Option.bind_eq_some_iff.1 hr
      obtain ⟨bs, _, hr⟩ := Option.map_eq_some_iff.1 hr
      have := (getOrInsert_grown g2.below hy).2 _ (g2.named _ _ (g1.named _ _ hf.modelNamed))
      subst this
      subst hr
      refine ⟨?_, rfl⟩
      have hgz : Grown q.1 z.1 := by
        split at hz
        · injection hz with hz
          subst hz
          exact Grown.refl g2.below
        · exact (getOrInsert_grown g2.below hz).1
      exact hgz.trans (grown_addBlocks hgz.below _ _)
  obtain ⟨g3, e5⟩ := h3
  subst h
  refine ⟨g1.trans (g2.trans g3), e5, e3, ?_⟩
  show p.2.2.toList ++ (if q.2.2 then [q.2.1] else []) ++ [r.2] = b.inserted
  rw [hf.ins, e2, e3, e4, e5, hlen]
  by_cases hn : registered m = [] <;> by_cases hl : (collectGlobalDtors m).length + (if registered m = [] then 0 else 1) = 1 <;>
    simp [hn] at hl ⊢ <;> simp [hl]

end Phasar.Globals
