import Verif.CG.CallGraphLemmas
/-!
# Properties C33 and C34: the call graph
-/
set_option linter.unusedSectionVars false
namespace Phasar.CG

variable {N F : Type} [DecidableEq N] [DecidableEq F]

/-! ## C33 -/

theorem C33.edges {cap : Nat} (os : List (Op N F)) : ∀ {s s' : Spec N F}, specRun cap s os = some s' →
    s'.edges = s.edges ++ edgesOf os := by
  induction os with
  | nil => intro s s' h; simp only [specRun, Option.some.injEq] at h; subst h; simp [edgesOf]
  | cons o os ih =>
    intro s s' h
    simp only [specRun] at h
    cases h1 : specStep cap s o with
    | none => rw [h1] at h; cases h
    | some s1 =>
      rw [h1] at h
      rw [ih h]
      cases o with
      | inst c =>
        simp only [specStep, Option.some.injEq] at h1
        subst h1; rfl
      | fn f =>
        simp only [specStep] at h1
        split at h1
        · cases h1; rfl
        · cases h1
      | edge c f =>
        simp only [specStep] at h1
        split at h1
        · cases h1; simp [edgesOf]
        · cases h1
      | edgeI c k f =>
        simp only [specStep] at h1
        split at h1
        · cases h1; simp [edgesOf]
        · cases h1
      | edgeF c f k =>
        simp only [specStep] at h1
        split at h1
        · cases h1; simp [edgesOf]
        · cases h1

/-- C33: after reserving `cap` function vertices, any sequence of builder operations that adds at most `cap` functions
and uses vertex pointers only for their own vertex never touches a dangling pointer.  Afterwards the callers of `f`
are exactly the call sites `c` of the calls `addCallEdge(c, f)`, in order, and the callees of `c` exactly their
functions; vertices never mentioned have none. -/
theorem C33_lists (cap : Nat) (os : List (Op N F)) (s : Spec N F) (h : specRun cap ⟨[], [], []⟩ os = some s) :
    ∃ g hs, run (reserve empty cap, []) os = some (g, hs) ∧
      (∀ f, callersOf g f = some (callersIn (edgesOf os) f)) ∧ ∀ c, calleesOf g c = some (calleesIn (edgesOf os) c) := by
  obtain ⟨g, hs, h1, h2, _⟩ := run_inv os (inv_reserve cap) h
  have he : s.edges = edgesOf os := by simpa using C33.edges os h
  exact ⟨g, hs, h1, fun f => by rw [← he]; exact h2.callers f, fun c => by rw [← he]; exact h2.callees c⟩

/-- C33: `c` is listed among the callers of `f` as often as `f` among the callees of `c`, namely as often as
`addCallEdge(c, f)` was called. -/
theorem C33_counts (cap : Nat) (os : List (Op N F)) (s : Spec N F) (h : specRun cap ⟨[], [], []⟩ os = some s) (c : N) (f : F) :
    ∃ g hs L M, run (reserve empty cap, []) os = some (g, hs) ∧ callersOf g f = some L ∧ calleesOf g c = some M ∧
      L.count c = (edgesOf os).count (c, f) ∧ M.count f = (edgesOf os).count (c, f) := by
  obtain ⟨g, hs, h1, h2, h3⟩ := C33_lists cap os s h
  exact ⟨g, hs, _, _, h1, h2 f, h3 c, count_callersIn _ _ _, count_calleesIn _ _ _⟩

/-- C33: no pointer handed out dangles: what was handed out for `c` or `f` stays the vertex of `c` or `f` and is live,
whatever operations follow within the reservation. -/
theorem C33_handles (cap : Nat) (os os' : List (Op N F)) (s : Spec N F)
    (h : specRun cap ⟨[], [], []⟩ (os ++ os') = some s) :
    ∃ s1 g1 hs1 g2 hs2, specRun cap ⟨[], [], []⟩ os = some s1 ∧ run (reserve empty cap, []) os = some (g1, hs1) ∧
      run (g1, hs1) os' = some (g2, hs2) ∧
      (∀ (k : Nat) c, s1.tags[k]? = some (Sum.inl c) →
        ∃ i, hs1[k]? = some (Handle.inst i) ∧ g2.calleesAt c = some i ∧ g2.inst[i]? = calleesOf g2 c ∧ (g2.inst[i]?).isSome) ∧
      (∀ (k : Nat) f, s1.tags[k]? = some (Sum.inr f) →
        ∃ p, hs1[k]? = some (Handle.fn p) ∧ g2.callersOf f = some p ∧ readFun g2 p = callersOf g2 f ∧ (readFun g2 p).isSome) := by
  rw [specRun_append] at h
  cases h0 : specRun cap ⟨[], [], []⟩ os with
  | none => rw [h0] at h; cases h
  | some s1 =>
    rw [h0] at h
    obtain ⟨g1, hs1, a1, a2, _⟩ := run_inv os (inv_reserve cap) h0
    obtain ⟨g2, hs2, b1, b2, b3, _⟩ := run_inv os' a2 h
    refine ⟨s1, g1, hs1, g2, hs2, rfl, a1, b1, ?_, ?_⟩
    · intro k c hk
      obtain ⟨i, h1, h2⟩ := a2.ti k c hk
      have h3 := b3.1 c i h2
      refine ⟨i, h1, h3, by simp [calleesOf, h3], ?_⟩
      rw [b2.ci c i h3]; rfl
    · intro k f hk
      obtain ⟨p, h1, h2⟩ := a2.tf k f hk
      have h3 := b3.2.1 f p h2
      refine ⟨p, h1, h3, by simp [callersOf, h3], ?_⟩
      obtain ⟨h4, h5⟩ := b2.fi f p h3
      simp [readFun, h4, h5]

/-- C33: the assertion in `addFunctionVertex` holds whenever the function fits the reservation. -/
theorem C33_assert (cap : Nat) (os : List (Op N F)) (s : Spec N F) (h : specRun cap ⟨[], [], []⟩ os = some s) (f : F)
    (hf : (addTo s.fns f).length ≤ cap) :
    ∃ g hs, run (reserve empty cap, []) os = some (g, hs) ∧ addFunOk g f = true := by
  obtain ⟨g, hs, h1, h2, _⟩ := run_inv os (inv_reserve cap) h
  refine ⟨g, hs, h1, ?_⟩
  unfold addFunOk
  cases hc : g.callersOf f with
  | some p => rfl
  | none =>
    have hm : f ∉ s.fns := fun hm => by
      obtain ⟨p, hp⟩ := (h2.fk f).2 hm
      rw [hc] at hp; cases hp
    have : addTo s.fns f = s.fns ++ [f] := if_neg hm
    rw [this] at hf
    simp only [List.length_append, List.length_cons, List.length_nil] at hf
    have h3 := h2.fl
    have h4 := h2.capEq
    simp only [Option.isSome_none, Bool.false_or, decide_eq_true_eq]
    omega

/-- C33: the reservation is needed: with one function reserved, adding a second moves the vertices, and reading the
callers of the first one follows a dangling pointer (in builds without assertions). -/
theorem C33_overflow : (run (reserve (empty : CG Nat Nat) 1, []) [.edge 10 1, .edge 11 2]).map (fun p =>
    (callersOf p.1 1, callersOf p.1 2, calleesOf p.1 10)) = some (none, some [11], some [1]) := by
  decide

/-- C33: writing through a vertex pointer from before the vertices were moved is undefined too, and a pointer from after it
is not. -/
theorem C33_overflow_write :
    run (reserve (empty : CG Nat Nat) 1, []) [.fn 1, .fn 2, .edgeF 10 1 0] = none ∧
    (run (reserve (empty : CG Nat Nat) 1, []) [.fn 1, .fn 2, .edgeF 10 2 1]).map (fun p => callersOf p.1 2) = some (some [10]) := by
  constructor
  · rfl
  · decide

/-- C33 instance: three functions, edges added in all ways, a double edge and a self-contained handle. -/
example : specRun 3 (⟨[], [], []⟩ : Spec Nat Nat)
      [.fn 1, .inst 10, .edge 10 2, .edgeI 10 1 1, .edgeF 11 1 0, .edge 11 3, .edge 10 2, .inst 12] =
    some ⟨[(10, 2), (10, 1), (11, 1), (11, 3), (10, 2)], [1, 2, 3], [.inr 1, .inl 10, .inl 12]⟩ := by
  decide

example := C33_counts 3 ([.fn 1, .inst 10, .edge 10 2, .edgeI 10 1 1, .edgeF 11 1 0, .edge 11 3, .edge 10 2] : List (Op Nat Nat))
  ⟨[(10, 2), (10, 1), (11, 1), (11, 3), (10, 2)], [1, 2, 3], [.inr 1, .inl 10]⟩ (by decide) 10 2

example := C33_handles 3 ([.fn 1, .inst 10] : List (Op Nat Nat)) [.edge 10 2, .edgeI 10 1 1, .edge 11 3]
  ⟨[(10, 2), (10, 1), (11, 3)], [1, 2, 3], [.inr 1, .inl 10]⟩ (by decide)

example := C33_assert 2 ([.edge 10 1] : List (Op Nat Nat)) ⟨[(10, 1)], [1], []⟩ (by decide) 2 (by decide)

/-! ## C34 -/

theorem C34.count_some (l : List N) (c : N) :
    @List.count (Option N) instBEqOfDecidableEq (some c) (l.map some) = l.count c := by
  induction l with
  | nil => rfl
  | cons x l ih =>
    rw [List.map_cons, @List.count_cons (Option N) instBEqOfDecidableEq, List.count_cons, ih]
    by_cases h : x = c
    · simp [h]
    · simp [h]

/-- C34 (partial): a call graph with at least one function, printed and read back, is the same graph: every function
has the same callers, every call site the same callees up to order, and the null call site has none.  The order of
each of the maps the data passes through is arbitrary (`order`, `es'`, `d'`); function names and instruction ids must
be unique and resolvable.  Missing: the empty graph (see `C34_empty`). -/
theorem C34_roundtrip_partial (cap : Nat) (os : List (Op N F)) (s : Spec N F) (h : specRun cap ⟨[], [], []⟩ os = some s)
    (fid : F → String) (iid : N → Nat) (getF : String → Option F) (getI : Nat → Option N)
    (hF : ∀ f, f ∈ s.fns → getF (fid f) = some f) (hI : ∀ c f, (c, f) ∈ s.edges → getI (iid c) = some c)
    (order : List F) (hord : order.Nodup) (hmem : ∀ f, f ∈ order ↔ f ∈ s.fns) (hne : s.fns ≠ []) :
    ∃ g hs d es, run (reserve empty cap, []) os = some (g, hs) ∧ collect g fid iid order [] = some d ∧
      toJson d = .obj es ∧
      ∀ es', es.Perm es' → ∃ d0, fromJson (.obj es') = some d0 ∧ ∀ d', d0.Perm d' →
        ∃ g', deserialize getF getI d' = some g' ∧
          (∀ f, ∃ L, callersOf g f = some L ∧ callersOf g' f = some (L.map some)) ∧
          (∀ c, ∃ M M', calleesOf g c = some M ∧ calleesOf g' (some c) = some M' ∧ M.Perm M') ∧
          calleesOf g' none = some [] := by
  obtain ⟨g, hs, h1, hi, _⟩ := run_inv os (inv_reserve cap) h
  have hinj : ∀ f f', f ∈ order → f' ∈ order → fid f = fid f' → f = f' := by
    intro f f' hf hf' e
    have a := hF f ((hmem f).1 hf)
    have b := hF f' ((hmem f').1 hf')
    rw [e, b] at a
    exact (Option.some.inj a).symm
  have hcol := collect_spec hi fid iid order [] hord hinj (fun _ _ _ he => by cases he)
  simp only [List.nil_append] at hcol
  refine ⟨g, hs, _, (order.map (fun f => (fid f, (callersIn s.edges f).map iid))).map
      (fun e => (e.1, match e.2 with | [] => none | l => some l)), h1, hcol, ?_, ?_⟩
  · cases order with
    | nil =>
      cases hfs : s.fns with
      | nil => exact (hne hfs).elim
      | cons f fs => exact absurd ((hmem f).2 (by rw [hfs]; exact List.mem_cons_self)) (by simp)
    | cons f fs => rfl
  · intro es' hes
    rw [List.map_map] at hes
    obtain ⟨o1, p1, e1⟩ := perm_map_inv _ hes order rfl
    refine ⟨o1.map (fun f => (fid f, (callersIn s.edges f).map iid)), ?_, ?_⟩
    · rw [e1]
      simp only [fromJson, List.map_map, Option.some.injEq]
      refine List.map_congr_left (fun f _ => ?_)
      simp only [Function.comp_apply]
      cases (callersIn s.edges f).map iid <;> rfl
    · intro d' hd'
      obtain ⟨o2, p2, e2⟩ := perm_map_inv _ hd' o1 rfl
      have hp := p1.trans p2
      have hn2 : o2.Nodup := hp.nodup_iff.1 hord
      have hm2 : ∀ f, f ∈ o2 ↔ f ∈ s.fns := fun f => hp.mem_iff.symm.trans (hmem f)
      obtain ⟨g', fns', k1, k2⟩ := loadFns_spec getF getI d' (inv_reserve (N := Option N) (F := F) d'.length) (by simp)
      have hedges : d'.flatMap (entryEdges getF getI) =
          o2.flatMap (fun f => (callersIn s.edges f).map (fun c => (some c, f))) := by
        rw [e2, List.flatMap_map]
        have key : ∀ l : List F, (∀ f, f ∈ l → f ∈ s.fns) →
            l.flatMap (fun f => entryEdges getF getI (fid f, (callersIn s.edges f).map iid)) =
            l.flatMap (fun f => (callersIn s.edges f).map (fun c => (some c, f))) := by
          intro l
          induction l with
          | nil => intro _; rfl
          | cons f l ih =>
            intro hl
            rw [List.flatMap_cons, List.flatMap_cons, ih (fun x hx => hl x (List.mem_cons_of_mem _ hx))]
            congr 1
            simp only [entryEdges, hF f (hl f List.mem_cons_self), List.map_map]
            refine List.map_congr_left (fun c hc => ?_)
            have hc' : (c, f) ∈ s.edges := by
              have hc0 : 0 < (callersIn s.edges f).count c := List.count_pos_iff.2 hc
              rw [count_callersIn] at hc0
              exact List.count_pos_iff.1 hc0
            simp only [Function.comp_apply, hI c f hc']
        exact key o2 (fun f hf => (hm2 f).1 hf)
      simp only [List.nil_append] at k2
      rw [hedges] at k2
      have hcallers : ∀ f, callersIn (o2.flatMap (fun f => (callersIn s.edges f).map (fun c => (some c, f)))) f =
          (callersIn s.edges f).map some := by
        intro f
        rw [callersIn_load _ _ hn2]
        by_cases hf : f ∈ o2
        · rw [if_pos hf]
        · rw [if_neg hf]
          have hnone : g.callersOf f = none := by
            cases hc : g.callersOf f with
            | none => rfl
            | some p => exact (hf ((hm2 f).2 ((hi.fk f).1 ⟨p, hc⟩))).elim
          rw [hi.fi0 f hnone]; rfl
      refine ⟨g', k1, ?_, ?_, ?_⟩
      · intro f
        refine ⟨_, hi.callers f, ?_⟩
        rw [k2.callers f]
        exact congrArg some (hcallers f)
      · intro c
        refine ⟨_, _, hi.callees c, k2.callees (some c), ?_⟩
        rw [List.perm_iff_count]
        intro f
        rw [count_calleesIn, count_calleesIn, ← count_callersIn, ← count_callersIn, hcallers f]
        rw [C34.count_some]
      · rw [k2.callees none]
        refine congrArg some (List.eq_nil_iff_forall_not_mem.2 (fun f hf => ?_))
        have h0 := List.count_pos_iff.2 hf
        rw [count_calleesIn, ← count_callersIn, hcallers f] at h0
        simpa using (@List.count_pos_iff (Option N) instBEqOfDecidableEq _ _ _).1 h0

/-- C34: the empty call graph does not survive: it is printed as `null`, and reading that throws. -/
theorem C34_empty (fid : F → String) (iid : N → Nat) :
    (collect (empty : CG N F) fid iid [] []).bind (fun d => fromJson (toJson d)) = none := rfl

/-- C34: for an instruction id that cannot be resolved, `deserialize` warns but still adds an edge, from the null
instruction. -/
theorem C34_null_edge : (deserialize (fun n => if n = "f" then some 1 else none) (fun i => if i = 7 then some 70 else none)
      [("f", [7, 8]), ("g", [7])]).map (fun g => (callersOf g 1, calleesOf g none, calleesOf g (some 70))) =
    some (some [some 70, none], some [1], some [1]) := by
  decide

/-- C34: names must be unique: of two functions with the same name, printing merges the callers and reading back gives them
to one of the two. -/
theorem C34_name_clash : ((run (reserve (empty : CG Nat Nat) 2, []) [.edge 10 1, .edge 11 2]).bind (fun p =>
      (collect p.1 (fun _ => "f") id [1, 2] []).bind (fun d => (fromJson (toJson d)).bind (fun d =>
        deserialize (fun n => if n = "f" then some 1 else none) some d)))).map
      (fun g => (callersOf g 1, callersOf g 2)) = some (some [some 10, some 11], some []) := by
  decide

/-- C34 instance: three functions, one without callers, read back in another order. -/
example := C34_roundtrip_partial 3 ([.fn 1, .edge 10 2, .edge 10 3, .edge 11 2, .edge 10 2] : List (Op Nat Nat))
  ⟨[(10, 2), (10, 3), (11, 2), (10, 2)], [1, 2, 3], [.inr 1]⟩ (by decide)
  (fun f => if f = 1 then "main" else if f = 2 then "foo" else "bar") (fun c => c)
  (fun n => if n = "main" then some 1 else if n = "foo" then some 2 else if n = "bar" then some 3 else none) some
  (by decide) (fun _ _ _ => rfl) [3, 1, 2] (by decide) (by intro f; simp; omega) (by decide)

example : (deserialize (fun n => if n = "main" then some 1 else if n = "foo" then some 2 else if n = "bar" then some 3 else none)
    (some : Nat → Option Nat) [("bar", [10]), ("foo", [10, 11, 10]), ("main", [])]).map
      (fun g => (callersOf g 2, calleesOf g (some 10), callersOf g 1)) =
    some (some [some 10, some 11, some 10], some [3, 2, 2], some []) := by
  decide

end Phasar.CG
