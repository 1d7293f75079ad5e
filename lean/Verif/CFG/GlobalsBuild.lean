import Verif.CFG.GlobalsRun
/-! # What `buildModel` builds -/
namespace Phasar.Globals

open Phasar.StringID (Str ascii)

/-- The name of the caller of the registered destructors. -/
def callerName (m : GMod) : Str := dtorsCallerName ++ 46 :: reducedName m.name

/-- The identity and the parameters of the function with a name. -/
def named (m : GMod) (n : Str) : Option (Nat × List Nat) := (fnNamed m n).map (fun g => (g.id, g.params))

/-- A module that grew: functions are added, and blocks at the end of functions. -/
structure Grown (m m' : GMod) : Prop where
  next : m.next ≤ m'.next
  below : Below m'
  sig : ∀ x, x < m.next → sig m' x = Globals.sig m x
  blocks : ∀ x g, fnOf m x = some g → ∃ g' ex, fnOf m' x = some g' ∧ g'.blocks = g.blocks ++ ex
  named : ∀ n i, named m n = some i → named m' n = some i
  rest : m'.name = m.name ∧ m'.ctors = m.ctors ∧ m'.dtors = m.dtors ∧ m'.atexit = m.atexit

theorem Grown.kinds {m m' : GMod} (h : Grown m m') {x : Nat} {ks : List (List Kind)} (hk : kindsOf m x = some ks) :
    ∃ ex, kindsOf m' x = some (ks ++ ex) := by
  unfold kindsOf at hk
  obtain ⟨g, hg, e⟩ := Option.map_eq_some_iff.1 hk
  obtain ⟨g', ex, h1, h2⟩ := h.blocks x g hg
  refine ⟨ex.map (fun b => b.map Prod.snd), ?_⟩
  unfold kindsOf
  rw [h1, ← e]
  simp [GFn.kinds, h2]

theorem Grown.refl {m : GMod} (h : Below m) : Grown m m :=
  ⟨Nat.le_refl _, h, fun _ _ => rfl, fun _ g h => ⟨g, [], h, by simp⟩, fun _ _ h => h, rfl, rfl, rfl, rfl⟩

theorem Grown.trans {m m' m'' : GMod} (h : Grown m m') (h' : Grown m' m'') : Grown m m'' := by
  refine ⟨Nat.le_trans h.next h'.next, h'.below, fun x hx => ?_, fun x g hg => ?_, fun n i hn => h'.named n i (h.named n i hn), ?_⟩
  · rw [h'.sig x (Nat.lt_of_lt_of_le hx h.next), h.sig x hx]
  · obtain ⟨g1, ex, e1, e2⟩ := h.blocks x g hg
    obtain ⟨g2, ex', e3, e4⟩ := h'.blocks x _ e1
    exact ⟨g2, ex ++ ex', e3, by rw [e4, e2, List.append_assoc]⟩
  · obtain ⟨a, b, c, d⟩ := h.rest
    obtain ⟨a', b', c', d'⟩ := h'.rest
    exact ⟨a'.trans a, b'.trans b, c'.trans c, d'.trans d⟩

theorem grown_addBlocks {m : GMod} (h : Below m) (f : Nat) (bs : List (List Kind)) : Grown m (addBlocks m f bs) := by
  refine ⟨Nat.le_add_right _ _, h.addBlocks f bs, fun x _ => sig_addBlocks m f bs x, fun x g hg => ?_, fun n i hn => ?_, rfl, rfl, rfl, rfl⟩
  · rw [fnOf_addBlocks, hg, Option.map_some]
    split
    · exact ⟨_, number m.next bs, rfl, rfl⟩
    · exact ⟨g, [], rfl, by simp⟩
  · exact (fnNamed_addBlocks m f bs n).trans hn

theorem named_mem {m : GMod} {n : Str} {i : Nat × List Nat} (h : named m n = some i) :
    n ≠ [] ∧ ∃ g ∈ m.fns, g.name = n ∧ g.id = i.1 ∧ g.params = i.2 := by
  unfold named fnNamed at h
  split at h
  · cases h
  · rename_i hn
    obtain ⟨g, h1, h2⟩ := Option.map_eq_some_iff.1 h
    have h3 := List.find?_some h1
    refine ⟨hn, g, List.mem_of_find?_eq_some h1, by simpa using h3, ?_, ?_⟩
    · rw [← h2]
    · rw [← h2]

theorem Added.grown {m m' : GMod} {x : Nat} {name : Str} {params : List Nat} (h : Added m m' x name params) (hb : Below m) : Grown m m' := by
  refine ⟨by rw [h.next]; omega, h.below hb, fun y hy => ?_, fun y g hg => ?_, fun n i hn => ?_, h.rest⟩
  · rw [h.sig hb, if_neg (by rw [h.id]; omega)]
  · have : y ≠ x := by
      intro e
      have := hb.fresh (x := y) (by rw [e, h.id]; omega)
      rw [this] at hg; cases hg
    exact ⟨g, [], by rw [h.fnOf hb, if_neg this]; exact hg, by simp⟩
  · unfold Globals.named fnNamed at hn ⊢
    split at hn
    · cases hn
    · rename_i e
      rw [if_neg e]
      obtain ⟨g, h1, h2⟩ := Option.map_eq_some_iff.1 hn
      rw [h.fns, List.find?_append, h1]
      simpa using h2

theorem Added.named_new {m m' : GMod} {x : Nat} {name : Str} {params : List Nat} (h : Added m m' x name params) (hne : name ≠ [])
    (hn : ∀ g ∈ m.fns, g.name ≠ name) : named m' name = some (x, params) := by
  unfold named fnNamed
  rw [if_neg hne, h.fns, List.find?_append, List.find?_eq_none.2 (fun g hg => by simpa using hn g hg)]
  simp

theorem getOrInsert_grown {m : GMod} (hb : Below m) {name : Str} {params : List Nat} {p : GMod × Nat} (h : getOrInsert m name params = some p) :
    Grown m p.1 ∧ (∀ i, named m name = some i → p = (m, i.1)) := by
  unfold getOrInsert at h
  cases hn : fnNamed m name with
  | some g =>
    rw [hn] at h
    dsimp only at h
    split at h
    · injection h with h
      subst h
      refine ⟨Grown.refl hb, fun i hi => ?_⟩
      unfold named at hi
      rw [hn] at hi
      injection hi with hi
      rw [← hi]
    · cases h
  | none =>
    rw [hn] at h
    injection h with h
    subst h
    refine ⟨Added.grown (x := m.next) (name := name) (params := params) ⟨rfl, rfl, rfl, rfl, rfl, rfl, rfl⟩ hb, fun i hi => ?_⟩
    unfold named at hi
    rw [hn] at hi; cases hi

/-! ### Instructions of the new functions -/

/-- The identities of the instructions of a function. -/
def GFn.instIds (g : GFn) : List Nat := g.blocks.flatten.map Prod.fst

/-- The functions with identities from `N` on have instructions from `N` on, and no two the same. -/
structure Apart (N : Nat) (m : GMod) : Prop where
  big : ∀ g ∈ m.fns, N ≤ g.id → ∀ i ∈ g.instIds, N ≤ i
  nodup : ∀ g ∈ m.fns, N ≤ g.id → g.instIds.Nodup
  apart : ∀ g ∈ m.fns, ∀ g' ∈ m.fns, N ≤ g.id → N ≤ g'.id → g.id ≠ g'.id → ∀ i ∈ g.instIds, i ∉ g'.instIds

theorem number_instIds (bs : List (List Kind)) : ∀ n, (number n bs).flatten.map Prod.fst = List.range' n bs.flatten.length := by
  induction bs with
  | nil => intro n; rfl
  | cons b bs ih =>
    intro n
    simp only [number, List.flatten_cons, List.map_append, ih, List.map_map, List.length_append]
    have : (Prod.fst ∘ fun p : Kind × Nat => (p.2, p.1)) = Prod.snd := rfl
    rw [this, List.zipIdx_map_snd, List.range'_append_1]

theorem Apart.added {N : Nat} {m m' : GMod} {x : Nat} {name : Str} {params : List Nat} (h : Added m m' x name params) (ha : Apart N m) :
    Apart N m' := by
  have hm : ∀ g ∈ m'.fns, g ∈ m.fns ∨ g.instIds = [] := by
    intro g hg
    rw [h.fns, List.mem_append, List.mem_singleton] at hg
    rcases hg with h | h
    · exact .inl h
    · exact .inr (by rw [h]; rfl)
  refine ⟨fun g hg hN i hi => ?_, fun g hg hN => ?_, fun g hg g' hg' hN hN' hne i hi hi' => ?_⟩
  · rcases hm g hg with h | h
    · exact ha.big g h hN i hi
    · rw [h] at hi; cases hi
  · rcases hm g hg with h | h
    · exact ha.nodup g h hN
    · rw [h]; exact List.nodup_nil
  · rcases hm g hg with h1 | h1
    · rcases hm g' hg' with h2 | h2
      · exact ha.apart g h1 g' h2 hN hN' hne i hi hi'
      · rw [h2] at hi'; cases hi'
    · rw [h1] at hi; cases hi

theorem Apart.addBlocks {N : Nat} {m : GMod} (ha : Apart N m) (hb : Below m) (hN : N ≤ m.next) (f : Nat) (bs : List (List Kind)) :
    Apart N (addBlocks m f bs) := by
  have hlt : ∀ g ∈ m.fns, ∀ i ∈ g.instIds, i < m.next := by
    intro g hg i hi
    unfold GFn.instIds at hi
    obtain ⟨p, hp, rfl⟩ := List.mem_map.1 hi
    obtain ⟨b, hb', hp⟩ := List.mem_flatten.1 hp
    exact hb.insts g hg b hb' p hp
  have hm : ∀ g ∈ (Globals.addBlocks m f bs).fns, ∃ g0 ∈ m.fns, g.id = g0.id ∧
      ((g.instIds = g0.instIds ∧ g.id ≠ f) ∨ (g.id = f ∧ g.instIds = g0.instIds ++ List.range' m.next bs.flatten.length)) := by
    intro g hg
    unfold Globals.addBlocks at hg
    obtain ⟨g0, hg0, e⟩ := List.mem_map.1 hg
    refine ⟨g0, hg0, ?_⟩
    by_cases hf : g0.id = f
    · rw [if_pos hf] at e
      subst e
      refine ⟨rfl, .inr ⟨hf, ?_⟩⟩
      show (g0.blocks ++ number m.next bs).flatten.map Prod.fst = _
      rw [List.flatten_append, List.map_append, number_instIds]
      rfl
    · rw [if_neg hf] at e
      subst e
      exact ⟨rfl, .inl ⟨rfl, hf⟩⟩
  have hr : ∀ i, i ∈ List.range' m.next bs.flatten.length → m.next ≤ i := by
    intro i hi
    rw [List.mem_range'] at hi
    obtain ⟨k, _, rfl⟩ := hi
    omega
  refine ⟨fun g hg hNg i hi => ?_, fun g hg hNg => ?_, fun g hg g' hg' hNg hNg' hne i hi hi' => ?_⟩
  · obtain ⟨g0, hg0, e, h⟩ := hm g hg
    rw [e] at hNg
    rcases h with ⟨h, _⟩ | ⟨_, h⟩
    · rw [h] at hi; exact ha.big g0 hg0 hNg i hi
    · rw [h, List.mem_append] at hi
      rcases hi with hi | hi
      · exact ha.big g0 hg0 hNg i hi
      · have := hr i hi; omega
  · obtain ⟨g0, hg0, e, h⟩ := hm g hg
    rw [e] at hNg
    rcases h with ⟨h, _⟩ | ⟨_, h⟩
    · rw [h]; exact ha.nodup g0 hg0 hNg
    · rw [h, List.nodup_append]
      refine ⟨ha.nodup g0 hg0 hNg, List.nodup_range', fun i hi j hj e => ?_⟩
      have h1 := hlt g0 hg0 i hi
      have h2 := hr j hj
      omega
  · obtain ⟨g0, hg0, e, h⟩ := hm g hg
    obtain ⟨g1, hg1, e', h'⟩ := hm g' hg'
    have hlow : ∀ i, i ∈ g0.instIds → i ∈ g1.instIds → False := fun i a b =>
      ha.apart g0 hg0 g1 hg1 (by omega) (by omega) (by omega) i a b
    rcases h with ⟨h, hf⟩ | ⟨hf, h⟩ <;> rcases h' with ⟨h', hf'⟩ | ⟨hf', h'⟩
    · rw [h] at hi; rw [h'] at hi'; exact hlow i hi hi'
    · rw [h] at hi; rw [h', List.mem_append] at hi'
      rcases hi' with hi' | hi'
      · exact hlow i hi hi'
      · have h1 := hlt g0 hg0 i hi; have h2 := hr i hi'; omega
    · rw [h'] at hi'; rw [h, List.mem_append] at hi
      rcases hi with hi | hi
      · exact hlow i hi hi'
      · have h1 := hlt g1 hg1 i hi'; have h2 := hr i hi; omega
    · exact hne (hf.trans hf'.symm)

/-! ### One new function -/

/-- A new function with these blocks. -/
structure NewFn (m m' : GMod) (x : Nat) (name : Str) (params : List Nat) (bs : List (List Kind)) : Prop where
  id : x = m.next
  next : m.next < m'.next
  grown : Grown m m'
  sig : ∀ y, sig m' y = if y = x then some (name, params) else Globals.sig m y
  kinds : ∀ y, kindsOf m' y = if y = x then some bs else kindsOf m y
  names : ∀ g ∈ m'.fns, g.name = name ∨ ∃ g' ∈ m.fns, g'.name = g.name
  named : named m' name = some (x, params)
  apart : ∀ N, N ≤ m.next → Apart N m → Apart N m'

theorem newFn {m : GMod} (hb : Below m) {name : Str} (params : List Nat) (hne : name ≠ []) (hn : ∀ g ∈ m.fns, g.name ≠ name) :
    ∃ m1, getOrInsert m name params = some (m1, m.next) ∧ Added m m1 m.next name params ∧
      ∀ bs, NewFn m (addBlocks m1 m.next bs) m.next name params bs := by
  obtain ⟨m1, h1, h2⟩ := getOrInsert_new params hn
  have hb1 := h2.below hb
  refine ⟨m1, h1, h2, fun bs => ⟨rfl, ?_, (h2.grown hb).trans (grown_addBlocks hb1 _ _), ?_, ?_, ?_, ?_, ?_⟩⟩
  · show m.next < m1.next + _
    rw [h2.next]; omega
  · intro y
    rw [sig_addBlocks, h2.sig hb]
  · intro y
    rw [kinds_addBlocks, h2.kinds hb]
    split <;> simp
  · intro g hg
    unfold addBlocks at hg
    obtain ⟨g0, hg0, e⟩ := List.mem_map.1 hg
    have e1 : g.name = g0.name := by rw [← e]; split <;> rfl
    rw [h2.fns, List.mem_append, List.mem_singleton] at hg0
    rcases hg0 with h | h
    · exact .inr ⟨g0, h, e1.symm⟩
    · exact .inl (by rw [e1, h])
  · exact (fnNamed_addBlocks m1 _ bs name).trans (h2.named_new hne hn)
  · intro N hN ha
    exact (ha.added h2).addBlocks hb1 (by rw [h2.next]; omega) _ _

/-! ### The whole -/

/-- The calls of the registered destructors. -/
def regEvents (lossless : Nat → Nat → Bool) (m : GMod) : List Event := (registered m).reverse.filterMap (regEvent lossless m)

/-- The calls of the other destructors. -/
def dtorEvents (m : GMod) : List Event := (collectGlobalDtors m).map (fun d => (d.2, []))

/-- The module `m'` has the functions that a build for `m` and `es` makes, possibly with further blocks at their ends; `c` is the
caller of the registered destructors. -/
structure Shape (lossless : Nat → Nat → Bool) (m m' : GMod) (es inserted : List Nat) (model cleanup sel c : Nat) : Prop where
  big : ∀ f ∈ inserted, m.next ≤ f
  selBig : es.length ≠ 1 → sel ∉ inserted
  model : model ∈ inserted ∧ ∃ bs ex, modelBlocks m model cleanup (collectGlobalCtors m) es sel 0 = some bs ∧ kindsOf m' model = some (bs ++ ex)
  caller : registered m ≠ [] → c ∈ inserted ∧ ∃ ex, kindsOf m' c = some (((regEvents lossless m).map callK ++ [.ret]) :: ex)
  clean : (registered m = [] ∧ ∃ p, collectGlobalDtors m = [(p, cleanup)]) ∨
    (registered m ≠ [] ∧ collectGlobalDtors m = [] ∧ cleanup = c) ∨
    (cleanup ∈ inserted ∧ ∃ ex, kindsOf m' cleanup =
      some (((dtorEvents m ++ if registered m = [] then [] else [(c, [])]).map callK ++ [.ret]) :: ex))

theorem fn_lt {m : GMod} (hb : Below m) {x : Nat} {g : GFn} (h : fnOf m x = some g) : x < m.next := by
  rcases Nat.lt_or_ge x m.next with hl | hl
  · exact hl
  · rw [hb.fresh hl] at h; cases h

theorem Shape.runs {lossless : Nat → Nat → Bool} {m m' : GMod} {es inserted : List Nat} {model cleanup sel c : Nat}
    (h : Shape lossless m m' es inserted model cleanup sel c) (hb : Below m) (hv : Valid m es) {gen : Nat → Option (List (List Kind))}
    (hgen : ∀ f, gen f = if f ∈ inserted then kindsOf m' f else none) (t : List Event) :
    (∃ ks blk, kindsOf m' model = some ks ∧ ks.head? = some blk ∧ Run gen ks blk t) ↔
      Trace lossless m es model sel (collectGlobalCtors m) (collectGlobalDtors m) t := by
  have hold : ∀ f, f < m.next → gen f = none := fun f hf => by
    rw [hgen, if_neg (fun hm => by have := h.big f hm; omega)]
  have hC : ∀ d ∈ collectGlobalCtors m, ∃ g, fnOf m d.2 = some g ∧ g.params = [] := fun d hd => hv.ctors d ((ctors_ordered m).mem.1 hd)
  have hD : ∀ d ∈ collectGlobalDtors m, ∃ g, fnOf m d.2 = some g ∧ g.params = [] := fun d hd => hv.dtors d ((dtors_ordered m).mem.1 hd)
  have gD : ∀ k ∈ dtorEvents m, gen k.1 = none := by
    intro k hk
    obtain ⟨d, hd, rfl⟩ := List.mem_map.1 hk
    obtain ⟨g, hg, _⟩ := hD d hd
    exact hold _ (fn_lt hb hg)
  have gR : ∀ k ∈ regEvents lossless m, gen k.1 = none := by
    intro k hk
    obtain ⟨d, hd, e⟩ := List.mem_filterMap.1 hk
    obtain ⟨g, t, hg, hp⟩ := hv.regs d (List.mem_reverse.1 hd)
    have : k.1 = d.1 := by
      unfold regEvent at e
      rw [hg] at e
      simp only [Option.map_some, hp] at e
      split at e
      · injection e with e; rw [← e]
      · split at e
        · injection e with e; rw [← e]
        · cases e
    rw [this]
    exact hold _ (fn_lt hb hg)
  have hclean : Cleans gen cleanup (dtorEvents m ++ regEvents lossless m) := by
    have hcal : registered m ≠ [] → Cleans gen c (regEvents lossless m) := by
      intro hr
      obtain ⟨h1, ex, h2⟩ := h.caller hr
      exact run_body gR (by rw [hgen, if_pos h1, h2])
    rcases h.clean with ⟨h1, p, h2⟩ | ⟨h1, h2, h3⟩ | ⟨h1, ex, h2⟩
    · have hg : gen cleanup = none := gD (cleanup, []) (by simp [dtorEvents, h2])
      have : dtorEvents m ++ regEvents lossless m = [(cleanup, [])] := by simp [dtorEvents, regEvents, h1, h2]
      rw [this]
      exact run_plain hg
    · have : dtorEvents m ++ regEvents lossless m = regEvents lossless m := by simp [dtorEvents, h2]
      rw [this, h3]
      exact hcal h1
    · by_cases hr : registered m = []
      · rw [if_pos hr, List.append_nil] at h2
        have : dtorEvents m ++ regEvents lossless m = dtorEvents m := by simp [regEvents, hr]
        rw [this]
        exact run_body gD (by rw [hgen, if_pos h1, h2])
      · rw [if_neg hr] at h2
        exact run_both gD (hcal hr) (by rw [hgen, if_pos h1, h2])
  obtain ⟨hm1, bs, ex, hm2, hm3⟩ := h.model
  obtain ⟨b, bs', hb1, hrun⟩ := run_model (gen := gen) (m := m) (model := model) (cleanup := cleanup) (sel := sel)
    (C := collectGlobalCtors m) (es := es) (T := dtorEvents m ++ regEvents lossless m)
    (fun d hd => by obtain ⟨g, hg, hp⟩ := hC d hd; exact ⟨g.name, by rw [sig_of hg, hp]⟩)
    (fun e he => by obtain ⟨g, hg⟩ := hv.entries e he; exact ⟨g.name, g.params, sig_of hg⟩)
    (fun d hd => by obtain ⟨g, hg, _⟩ := hC d hd; exact hold _ (fn_lt hb hg))
    (fun e he => by obtain ⟨g, hg⟩ := hv.entries e he; exact hold _ (fn_lt hb hg))
    (fun hl => by rw [hgen, if_neg (h.selBig hl)]) hclean hv.some_entry ex
  rw [hm2] at hb1
  injection hb1 with hb1
  subst hb1
  have hent : ∀ e f, fnOf m e = some f → tailEv model e f.name f.params (dtorEvents m ++ regEvents lossless m) =
      entryEvents model f ++ if f.name = ascii "main" then
        (collectGlobalDtors m).map (fun d => (d.2, [])) ++ (registered m).reverse.filterMap (regEvent lossless m) else [] := by
    intro e f hf
    have := fnOf_id hf
    unfold tailEv entryEv entryEvents dtorEvents regEvents
    rw [this]
  constructor
  · rintro ⟨ks, blk, h1, h2, h3⟩
    rw [hm3] at h1
    injection h1 with h1
    subst h1
    injection h2 with h2
    subst h2
    obtain ⟨e, he, n, ps, hs, ht⟩ := (hrun t).1 h3
    obtain ⟨f, hf1, hf2, hf3⟩ := sig_some hs
    subst hf2; subst hf3
    rw [hent e f hf1] at ht
    exact ⟨e, he, f, hf1, by rw [ht]; simp [List.append_assoc]⟩
  · rintro ⟨e, he, f, hf, ht⟩
    refine ⟨b :: bs' ++ ex, b, hm3, rfl, (hrun t).2 ⟨e, he, f.name, f.params, sig_of hf, ?_⟩⟩
    rw [hent e f hf, ht]
    simp [List.append_assoc]

end Phasar.Globals
