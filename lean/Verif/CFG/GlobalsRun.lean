import Verif.CFG.GlobalsLemmas
/-! # Executions of the model of `GlobalCtorsDtorsModel` -/
namespace Phasar.Globals

open Phasar.StringID (Str ascii)

theorem mapM_some {α β : Type} {f : α → Option β} {g : α → β} (l : List α) (h : ∀ x ∈ l, f x = some (g x)) : l.mapM f = some (l.map g) := by
  induction l with
  | nil => rfl
  | cons a l ih =>
    rw [List.mapM_cons, h a List.mem_cons_self, ih (fun x hx => h x (List.mem_cons_of_mem _ hx))]
    rfl

/-- A call as an instruction. -/
def callK (e : Event) : Kind := .call e.1 e.2

theorem sig_some {m : GMod} {x : Nat} {n : Str} {ps : List Nat} (h : sig m x = some (n, ps)) :
    ∃ g, fnOf m x = some g ∧ g.name = n ∧ g.params = ps := by
  unfold sig at h
  obtain ⟨g, h1, h2⟩ := Option.map_eq_some_iff.1 h
  simp only [Prod.mk.injEq] at h2
  exact ⟨g, h1, h2.1, h2.2⟩

theorem sig_of {m : GMod} {x : Nat} {g : GFn} (h : fnOf m x = some g) : sig m x = some (g.name, g.params) := by
  unfold sig; rw [h]; rfl

theorem callPlain_ok {m : GMod} {f : Nat} {n : Str} (h : sig m f = some (n, [])) : callPlain m f = some (callK (f, [])) := by
  obtain ⟨g, h1, _, h3⟩ := sig_some h
  unfold callPlain
  rw [h1]
  simp [h3, callK]

theorem dtorCall_ok {lossless : Nat → Nat → Bool} {m m' : GMod} {d : Nat × Opnd} {g : GFn} {t : Nat} (h : fnOf m d.1 = some g)
    (hp : g.params = [t]) (hs : sig m' d.1 = sig m d.1) :
    dtorCall lossless m' d = some ((regEvent lossless m d).toList.map callK) := by
  rw [sig_of h] at hs
  obtain ⟨g', h1, _, h3⟩ := sig_some hs
  unfold dtorCall regEvent
  rw [h1, h]
  simp only [Option.map_some, h3, hp]
  by_cases e : d.2.ty = t
  · simp [e, callK]
  · simp only [ne_eq, e, not_false_eq_true, if_true, if_false]
    split <;> simp [callK]

theorem flatten_events {α : Type} (f : α → Option Event) (l : List α) :
    (l.map (fun d => (f d).toList.map callK)).flatten = (l.filterMap f).map callK := by
  induction l with
  | nil => rfl
  | cons a l ih =>
    rw [List.map_cons, List.flatten_cons, ih]
    cases h : f a <;> simp [h]

/-- The call of an entry point with the identity `e`. -/
def entryEv (model e : Nat) (n : Str) (ps : List Nat) : List Event :=
  if ps = [] then [(e, [])] else if n = ascii "main" ∧ ps.length = 2 then [(e, [.loc model 0 0, .loc model 1 1])] else []

theorem callUEntry_ok {m : GMod} {g cleanup e : Nat} {n : Str} {ps : List Nat} (h : sig m e = some (n, ps)) :
    callUEntry m g cleanup e = some ((entryEv g e n ps).map callK ++ if n = ascii "main" then [callK (cleanup, [])] else []) := by
  obtain ⟨f, h1, h2, h3⟩ := sig_some h
  unfold callUEntry entryEv
  rw [h1, Option.map_some, h2, h3]
  congr 1
  congr 1
  match ps with
  | [] => rfl
  | [a] => simp
  | [a, b] =>
    by_cases hn : n = ascii "main"
    · simp [hn, callK]
    · simp [hn]
  | a :: b :: c :: r => simp

/-- The events of a call of the cleanup function. -/
def Cleans (gen : Nat → Option (List (List Kind))) (cleanup : Nat) (T : List Event) : Prop :=
  ∀ bs r t, Run gen bs (callK (cleanup, []) :: r) t ↔ ∃ t', t = T ++ t' ∧ Run gen bs r t'

variable {gen : Nat → Option (List (List Kind))}

theorem run_calls {bs : List (List Kind)} {r : List Kind} {t : List Event} (ks : List Event) (hf : ∀ k ∈ ks, gen k.1 = none) :
    Run gen bs (ks.map callK ++ r) t ↔ ∃ t', t = ks ++ t' ∧ Run gen bs r t' := run_exts ks hf

theorem run_body {ks : List Event} (hf : ∀ k ∈ ks, gen k.1 = none) {f : Nat} {ex : List (List Kind)}
    (hg : gen f = some ((ks.map callK ++ [.ret]) :: ex)) : Cleans gen f ks := by
  intro bs r t
  unfold callK
  rw [run_int hg]
  constructor
  · rintro ⟨t1, t2, rfl, h1, h2⟩
    obtain ⟨t', rfl, h⟩ := (run_calls ks hf).1 h1
    rw [run_ret.1 h]
    exact ⟨t2, by simp, h2⟩
  · rintro ⟨t', rfl, h⟩
    exact ⟨ks, t', rfl, (run_calls ks hf).2 ⟨[], by simp, run_ret.2 rfl⟩, h⟩

theorem run_plain {f : Nat} (hf : gen f = none) : Cleans gen f [(f, [])] := by
  intro bs r t
  unfold callK
  rw [run_ext hf]
  rfl

/-- The cleanup function that calls the destructors and the caller of the registered ones. -/
theorem run_both {ks T : List Event} (hf : ∀ k ∈ ks, gen k.1 = none) {f c : Nat} (hc : Cleans gen c T) {ex : List (List Kind)}
    (hg : gen f = some (((ks ++ [(c, [])]).map callK ++ [.ret]) :: ex)) : Cleans gen f (ks ++ T) := by
  intro bs r t
  show Run gen bs (.call f [] :: r) t ↔ _
  rw [run_int hg]
  constructor
  · rintro ⟨t1, t2, rfl, h1, h2⟩
    rw [List.map_append, List.append_assoc, run_calls ks hf] at h1
    obtain ⟨t', rfl, h⟩ := h1
    rw [List.map_cons, List.map_nil, List.singleton_append, hc] at h
    obtain ⟨t'', rfl, h⟩ := h
    rw [run_ret.1 h]
    exact ⟨t2, by simp, h2⟩
  · rintro ⟨t', rfl, h⟩
    refine ⟨ks ++ T, t', rfl, ?_, h⟩
    rw [List.map_append, List.append_assoc, run_calls ks hf]
    refine ⟨T, rfl, ?_⟩
    rw [List.map_cons, List.map_nil, List.singleton_append, hc]
    exact ⟨[], by simp, run_ret.2 rfl⟩

/-- What follows the constructors and the choice, for one entry point. -/
def tailEv (model e : Nat) (n : Str) (ps : List Nat) (T : List Event) : List Event :=
  entryEv model e n ps ++ if n = ascii "main" then T else []

theorem run_uentry {bs : List (List Kind)} {r : List Kind} {t : List Event} {model cleanup e : Nat} {n : Str} {ps : List Nat} {T : List Event}
    (he : gen e = none) (hc : Cleans gen cleanup T) :
    Run gen bs (((entryEv model e n ps).map callK ++ if n = ascii "main" then [callK (cleanup, [])] else []) ++ r) t ↔
      ∃ t', t = tailEv model e n ps T ++ t' ∧ Run gen bs r t' := by
  have hx : ∀ k ∈ entryEv model e n ps, gen k.1 = none := by
    intro k hk
    unfold entryEv at hk
    split at hk
    · simp at hk; rw [hk]; exact he
    · split at hk
      · simp at hk; rw [hk]; exact he
      · cases hk
  rw [List.append_assoc, run_calls _ hx]
  unfold tailEv
  by_cases hn : n = ascii "main"
  · simp only [hn, if_true, List.singleton_append]
    constructor
    · rintro ⟨t', rfl, h⟩
      obtain ⟨t'', rfl, h'⟩ := (hc _ _ _).1 h
      exact ⟨t'', by simp, h'⟩
    · rintro ⟨t', rfl, h⟩
      exact ⟨T ++ t', by simp, (hc _ _ _).2 ⟨t', rfl, h⟩⟩
  · simp [hn]

theorem lookup_range (n c i : Nat) : ∀ s, ((List.range' s n).map (fun j => (j, c + j))).lookup i =
    if s ≤ i ∧ i < s + n then some (c + i) else none := by
  induction n with
  | zero => intro s; rw [if_neg (by omega)]; rfl
  | succ n ih =>
    intro s
    rw [List.range'_succ, List.map_cons, List.lookup_cons, ih]
    by_cases h : i = s
    · subst h; simp
    · rw [show (i == s) = false by simpa using h]
      simp only
      by_cases h2 : s + 1 ≤ i ∧ i < s + 1 + n
      · rw [if_pos h2, if_pos (by omega)]
      · rw [if_neg h2, if_neg (by omega)]

/-- Executions of the blocks of the model, whatever blocks follow them. -/
theorem run_model {m : GMod} {model cleanup sel : Nat} {C : List (Nat × Nat)} {es : List Nat} {T : List Event}
    (hC : ∀ d ∈ C, ∃ n, sig m d.2 = some (n, [])) (hE : ∀ e ∈ es, ∃ n ps, sig m e = some (n, ps))
    (gC : ∀ d ∈ C, gen d.2 = none) (gE : ∀ e ∈ es, gen e = none) (gS : es.length ≠ 1 → gen sel = none) (hT : Cleans gen cleanup T)
    (hne : es ≠ []) (ex : List (List Kind)) :
    ∃ b bs, modelBlocks m model cleanup C es sel 0 = some (b :: bs) ∧ ∀ t, Run gen (b :: bs ++ ex) b t ↔
      ∃ e ∈ es, ∃ n ps, sig m e = some (n, ps) ∧
        t = C.map (fun d => (d.2, [])) ++ (if es.length = 1 then [] else [(sel, [])]) ++ tailEv model e n ps T := by
  have h1 : (C.map Prod.snd).mapM (callPlain m) = some (((C.map (fun d => ((d.2, []) : Event)))).map callK) := by
    rw [mapM_some (g := fun f => callK (f, []))]
    · simp [Function.comp_def]
    · intro f hf
      obtain ⟨d, hd, rfl⟩ := List.mem_map.1 hf
      obtain ⟨n, hn⟩ := hC d hd
      exact callPlain_ok hn
  let U : Nat → List Kind := fun e => (entryEv model e ((sig m e).getD ([], [])).1 ((sig m e).getD ([], [])).2).map callK ++
    if ((sig m e).getD ([], [])).1 = ascii "main" then [callK (cleanup, [])] else []
  have h2 : es.mapM (callUEntry m model cleanup) = some (es.map U) := by
    refine mapM_some es (fun e he => ?_)
    obtain ⟨n, ps, hs⟩ := hE e he
    rw [callUEntry_ok hs]
    simp [U, hs]
  have gC' : ∀ k ∈ C.map (fun d => ((d.2, []) : Event)), gen k.1 = none := by
    intro k hk
    obtain ⟨d, hd, rfl⟩ := List.mem_map.1 hk
    exact gC d hd
  have hU : ∀ {bs r t e}, e ∈ es → (Run gen bs (U e ++ r) t ↔
      ∃ t' n ps, sig m e = some (n, ps) ∧ t = tailEv model e n ps T ++ t' ∧ Run gen bs r t') := by
    intro bs r t e he
    obtain ⟨n, ps, hs⟩ := hE e he
    have : U e = (entryEv model e n ps).map callK ++ if n = ascii "main" then [callK (cleanup, [])] else [] := by simp [U, hs]
    rw [this, run_uentry (gE e he) hT]
    constructor
    · rintro ⟨t', h3, h4⟩; exact ⟨t', n, ps, hs, h3, h4⟩
    · rintro ⟨t', n', ps', h3, h4, h5⟩
      rw [hs] at h3
      simp only [Option.some.injEq, Prod.mk.injEq] at h3
      obtain ⟨rfl, rfl⟩ := h3
      exact ⟨t', h4, h5⟩
  unfold modelBlocks
  rw [h1, h2]
  simp only [Option.bind_some, Option.map_some]
  match es, hne with
  | [e], _ =>
    refine ⟨_, _, rfl, fun t => ?_⟩
    rw [List.append_assoc, run_calls _ gC']
    constructor
    · rintro ⟨t', rfl, h⟩
      obtain ⟨t'', n, ps, hs, rfl, h'⟩ := (hU List.mem_cons_self).1 h
      rw [run_ret.1 h']
      exact ⟨e, List.mem_cons_self, n, ps, hs, by simp⟩
    · rintro ⟨e', he', n, ps, hs, rfl⟩
      obtain rfl : e' = e := by simpa using he'
      exact ⟨tailEv model e' n ps T, by simp, (hU List.mem_cons_self).2 ⟨[], n, ps, hs, by simp, run_ret.2 rfl⟩⟩
  | e1 :: e2 :: es, _ =>
    simp only [List.map_cons]
    refine ⟨_, _, rfl, fun t => ?_⟩
    generalize hes : e1 :: e2 :: es = L
    have hmap : U e1 :: U e2 :: es.map U = L.map U := by rw [← hes]; rfl
    have hlen : L.length ≠ 1 := by rw [← hes]; simp
    have hcalls : ((U e1 ++ [Kind.br (0 + 2)]) :: (U e2 ++ [.br (0 + 2)]) :: (es.map U).map (fun u => u ++ [.br (0 + 2)])) =
        L.map (fun e => U e ++ [.br 2]) := by rw [← hes]; simp
    rw [hes] at hU gS
    rw [hmap]
    simp only [List.cons_append, hcalls, if_neg hlen]
    generalize hB : (List.map callK (List.map (fun d => (d.snd, [])) C) ++ _) = B
    have hget : ∀ i, (B :: [Kind.unreachable] :: [Kind.ret] :: (L.map (fun e => U e ++ [.br 2]) ++ ex))[0 + 3 + i]? =
        (L.map (fun e => U e ++ [.br 2]) ++ ex)[i]? := by
      intro i
      rw [show 0 + 3 + i = i + 1 + 1 + 1 by omega]
      rfl
    rw [← hB, run_calls _ gC', hB]
    have hsel : ∀ t', Run gen (B :: [Kind.unreachable] :: [Kind.ret] :: (L.map (fun e => U e ++ [.br 2]) ++ ex))
        [.call sel [], .switch ((List.range (L.map U).length).map (fun i => (i, 0 + 3 + i))) (0 + 1)] t' ↔
        ∃ e ∈ L, ∃ n ps, sig m e = some (n, ps) ∧ t' = (sel, []) :: tailEv model e n ps T := by
      intro t'
      rw [run_ext (gS hlen)]
      constructor
      · rintro ⟨t1, rfl, h⟩
        rw [run_switch rfl] at h
        obtain ⟨i, k, b, h3, h4, h5⟩ := h
        rw [List.range_eq_range', lookup_range] at h3
        split at h3
        · rename_i hi
          injection h3 with h3
          rw [← h3, hget, List.getElem?_append_left (by simpa using hi.2), List.getElem?_map] at h4
          obtain ⟨e, he, e'⟩ := Option.map_eq_some_iff.1 h4
          subst e'
          obtain ⟨t2, n, ps, hs, rfl, h6⟩ := (hU (List.mem_of_getElem? he)).1 h5
          rw [run_br (b := [.ret]) rfl, run_ret] at h6
          exact ⟨e, List.mem_of_getElem? he, n, ps, hs, by rw [h6]; simp⟩
        · cases h3
      · rintro ⟨e, he, n, ps, hs, rfl⟩
        refine ⟨_, rfl, ?_⟩
        rw [run_switch rfl]
        obtain ⟨i, hi⟩ := List.mem_iff_getElem?.1 he
        have hil : i < L.length := (List.getElem?_eq_some_iff.1 hi).1
        refine ⟨i, 0 + 3 + i, U e ++ [.br 2], ?_, ?_, ?_⟩
        · rw [List.range_eq_range', lookup_range, if_pos (by simpa using hil)]
        · rw [hget, List.getElem?_append_left (by simpa using hil), List.getElem?_map, hi]; rfl
        · exact (hU he).2 ⟨[], n, ps, hs, by simp, (run_br (b := [.ret]) rfl).2 (run_ret.2 rfl)⟩
    constructor
    · rintro ⟨t', rfl, h⟩
      obtain ⟨e, he, n, ps, hs, rfl⟩ := (hsel t').1 h
      exact ⟨e, he, n, ps, hs, by simp⟩
    · rintro ⟨e, he, n, ps, hs, rfl⟩
      exact ⟨(sel, []) :: tailEv model e n ps T, by simp, (hsel _).2 ⟨e, he, n, ps, hs, rfl⟩⟩

end Phasar.Globals
