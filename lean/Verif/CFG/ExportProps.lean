import Verif.CFG.Export
import Verif.CFG.Props
/-!
# C81: the exported inter-procedural control-flow graph
-/
namespace Phasar.CFG

/-- Specification: `n` ends a block with two successor blocks, that begin with `x` and `y`. -/
def Branch (ign : Bool) (F : Fn) (n x y : Node) : Prop :=
  ∃ B C D, F[n.1]? = some B ∧ n.2 = B.ins.length ∧ B.succs = [x.1, y.1] ∧ F[x.1]? = some C ∧ First ign C x.2 ∧ F[y.1]? = some D ∧
    First ign D y.2 ∧ Visible ign F x ∧ Visible ign F y

/-- Specification: control passes from `n` to `k` in function `f`, with the label of the edge. -/
def Lab (ign : Bool) (m : Mod) (f : Nat) (n k : Node) (l : Label) : Prop :=
  (Visible ign (m.fns f) k ∧ Step ign (m.fns f) n k ∧ (¬ ∃ x y, Branch ign (m.fns f) n x y) ∧ l = .none) ∨
  (∃ y, Branch ign (m.fns f) n k y ∧ (m.call f n = some .invoke ∧ l = .normal ∨ m.call f n = none ∧ l = .true_)) ∨
  (∃ x, Branch ign (m.fns f) n x k ∧ (m.call f n = some .invoke ∧ l = .unwind ∨ m.call f n = none ∧ l = .false_))

/-- Specification: the edges of an inter-procedural control-flow graph, as the solvers see it: within a function, from a call to
the beginning of a callee, from the exits of a callee to behind the call, and past a call if a callee is only declared or none
is known.  `lab` tells where control passes to in a function. -/
inductive Edge (ign : Bool) (m : Mod) (lab : Nat → Node → Node → Label → Prop) : GNode → GNode → Label → Prop
  | intra {f n k l} : f ∈ m.verts → Visible ign (m.fns f) n → m.call f n = none → lab f n k l →
      Edge ign m lab (f, n) (f, k) l
  | call {f n g B i} : f ∈ m.verts → Visible ign (m.fns f) n → m.call f n ≠ none → g ∈ m.callees f n → (m.fns g)[0]? = some B →
      First ign B i → Visible ign (m.fns g) (0, i) → Edge ign m lab (f, n) (g, 0, i) .none
  | ret {f n g x k l} : f ∈ m.verts → Visible ign (m.fns f) n → m.call f n ≠ none → g ∈ m.callees f n → x ∈ exitPoints (m.fns g) →
      lab f n k l → Edge ign m lab (g, x) (f, k) l
  | past {f n k l} : f ∈ m.verts → Visible ign (m.fns f) n → m.call f n ≠ none →
      (m.callees f n = [] ∨ ∃ g ∈ m.callees f n, m.fns g = []) → lab f n k l → Edge ign m lab (f, n) (f, k) l

/-- What the LLVM verifier makes sure of. -/
structure Mod.WF (m : Mod) : Prop where
  fns : ∀ f, CFG.WF (m.fns f)
  /-- Only `invoke` and `callbr` end a block, and they have successors. -/
  call : ∀ f n B, m.call f n ≠ none → (m.fns f)[n.1]? = some B → n.2 < B.ins.length ∨ (m.call f n ≠ some .call ∧ B.succs ≠ [])

theorem C81.mapM {α β} {g : α → Option (List β)} : ∀ {l : List α}, (∀ x ∈ l, ∃ z, g x = some z) →
    ∃ r, (l.mapM g).map List.flatten = some r ∧ ∀ y, y ∈ r ↔ ∃ x ∈ l, ∃ z, g x = some z ∧ y ∈ z
  | [], _ => ⟨[], rfl, fun _ => ⟨nofun, fun ⟨_, h, _⟩ => nomatch h⟩⟩
  | x :: l, h => by
    obtain ⟨r, hr, hm⟩ := C81.mapM (l := l) fun y hy => h y (List.mem_cons_of_mem _ hy)
    obtain ⟨z, hz⟩ := h x List.mem_cons_self
    cases hl : l.mapM g with
    | none => rw [hl] at hr; exact nomatch hr
    | some r' =>
      rw [hl] at hr
      have e : r'.flatten = r := Option.some.inj hr
      refine ⟨z ++ r, ?_, fun y => ?_⟩
      · rw [List.mapM_cons, hz, hl]
        show some (z :: r').flatten = _
        rw [List.flatten_cons, e]
      · rw [List.mem_append, hm]
        constructor
        · rintro (h | ⟨a, ha, r⟩)
          · exact ⟨x, List.mem_cons_self, z, hz, h⟩
          · exact ⟨a, List.mem_cons_of_mem _ ha, r⟩
        · rintro ⟨a, ha, w, hw, hy⟩
          rcases List.mem_cons.1 ha with rfl | ha
          · rw [hz] at hw; exact .inl (Option.some.inj hw ▸ hy)
          · exact .inr ⟨a, ha, w, hw, hy⟩

theorem C81.visible_iff {ign : Bool} {f : Fn} {n : Node} : Visible ign f n ↔ n ∈ instructions f ∧ (ign && isDbg f n) = false := by
  unfold Visible
  rw [mem_instructions]
  cases ign <;> simp

theorem C81.succs_visible {ign : Bool} {f : Fn} {n k : Node} {L : List Node} (hs : succs ign f n = some L) (hk : k ∈ L) :
    Visible ign f k := by
  have hent : ∀ b x, enter ign f b = some x → Visible ign f x := by
    intro b x hx
    unfold enter at hx
    cases hC : f[b]? with
    | none => rw [hC] at hx; exact nomatch hx
    | some C =>
      rw [hC] at hx
      cases hf : front ign C with
      | none => rw [Option.bind_some, hf] at hx; exact nomatch hx
      | some i =>
        rw [Option.bind_some, hf] at hx
        have e : (b, i) = x := Option.some.inj hx
        subst e
        have := front_iff.1 hf
        refine ⟨⟨C, hC, this.1.1⟩, fun h => ?_⟩
        unfold isDbg
        rw [show f[(b, i).1]? = some C from hC]
        exact this.2 h
  unfold succs at hs
  cases hB : f[n.1]? with
  | none => rw [hB] at hs; exact nomatch hs
  | some B =>
    rw [hB] at hs
    cases hx : nxt ign B n.2 with
    | some i =>
      have hx' : (if ign then nextNonDbg B n.2 else nextNode B n.2) = some i := hx
      simp only [hx', Option.some.injEq] at hs
      subst hs
      obtain rfl := List.mem_singleton.1 hk
      have := nxt_iff.1 hx
      refine ⟨⟨B, hB, this.1.2.1⟩, fun h => ?_⟩
      unfold isDbg
      rw [show f[(n.1, i).1]? = some B from hB]
      exact this.2 h
    | none =>
      have hx' : (if ign then nextNonDbg B n.2 else nextNode B n.2) = none := hx
      simp only [hx'] at hs
      split at hs
      · cases hh : B.succs.head? with
        | none => rw [hh] at hs; exact nomatch hs
        | some b =>
          rw [hh, Option.bind_some] at hs
          cases he : enter ign f b with
          | none => rw [he] at hs; exact nomatch hs
          | some x =>
            rw [he] at hs
            have e : [x] = L := Option.some.inj hs
            subst e
            obtain rfl := List.mem_singleton.1 hk
            exact hent b _ he
      · have : ∀ (l : List Nat) (L : List Node), l.mapM (enter ign f) = some L → ∀ k ∈ L, Visible ign f k := by
          intro l
          induction l with
          | nil => intro L h k hk; obtain rfl := Option.some.inj h; exact nomatch hk
          | cons b l ih =>
            intro L h k hk
            rw [List.mapM_cons] at h
            cases he : enter ign f b with
            | none => rw [he] at h; exact nomatch h
            | some x =>
              cases hl : l.mapM (enter ign f) with
              | none => rw [he, hl] at h; exact nomatch h
              | some L' =>
                rw [he, hl] at h
                have e : x :: L' = L := Option.some.inj h
                subst e
                rcases List.mem_cons.1 hk with rfl | hk
                · exact hent b _ he
                · exact ih L' hl k hk
        exact this _ _ hs k hk

theorem C81.mem_succs {ign : Bool} {f : Fn} (hw : WF f) {n : Node} (hn : Visible ign f n) (hl : ¬ Lazy f n) {L : List Node}
    (hs : succs ign f n = some L) (k : Node) : k ∈ L ↔ Visible ign f k ∧ Step ign f n k := by
  constructor
  · intro hk
    have hv := C81.succs_visible hs hk
    obtain ⟨L', e, h⟩ := C42_succs_partial ign f hw n k hn hv hl
    rw [hs] at e
    obtain rfl := Option.some.inj e
    exact ⟨hv, h.1 hk⟩
  · rintro ⟨hv, h⟩
    obtain ⟨L', e, h'⟩ := C42_succs_partial ign f hw n k hn hv hl
    rw [hs] at e
    obtain rfl := Option.some.inj e
    exact h'.2 h

/-- A function that gives every defined function a start. -/
def C81.Starts (ign : Bool) (m : Mod) (start : Nat → Option GNode) : Prop :=
  ∀ g, m.fns g ≠ [] → ∃ B i, start g = some (g, 0, i) ∧ (m.fns g)[0]? = some B ∧ First ign B i ∧ Visible ign (m.fns g) (0, i)

theorem C81.dotStart_ok (ign : Bool) (m : Mod) : C81.Starts ign m (dotStart ign m) := by
  intro g hg
  cases hf : m.fns g with
  | nil => exact absurd hf hg
  | cons B l =>
    obtain ⟨i, h1, h2, h3⟩ := front_ok ign B
    refine ⟨B, i, ?_, rfl, h2, ⟨B, rfl, h2.1⟩, fun h => ?_⟩
    · unfold dotStart
      rw [hf, List.getElem?_cons_zero, Option.bind_some, h1]; rfl
    · show dbgAt B i = false
      exact h3 h

/-- The edges of a call, for one instruction behind it. -/
def C81.Inter (ign : Bool) (m : Mod) (f : Nat) (n to : Node) (l : Label) (a b : GNode) (l' : Label) : Prop :=
  (l' = .none ∧ a = (f, n) ∧
    ∃ g ∈ m.callees f n, ∃ B i, (m.fns g)[0]? = some B ∧ First ign B i ∧ Visible ign (m.fns g) (0, i) ∧ b = (g, 0, i)) ∨
  (l' = l ∧ b = (f, to) ∧ ∃ g ∈ m.callees f n, ∃ x ∈ exitPoints (m.fns g), a = (g, x)) ∨
  (l' = l ∧ a = (f, n) ∧ b = (f, to) ∧ (m.callees f n = [] ∨ ∃ g ∈ m.callees f n, m.fns g = []))

theorem C81.inter {ign : Bool} {m : Mod} {start : Nat → Option GNode} (hs : C81.Starts ign m start) (f : Nat) (n to : Node) (l : Label) :
    ∃ L, interEdges start m f n to l = some L ∧ ∀ a b l', (a, b, l') ∈ L ↔ C81.Inter ign m f n to l a b l' := by
  obtain ⟨r, hr, hm⟩ := C81.mapM (l := m.callees f n) (g := fun g => if m.fns g = [] then some []
    else (start g).map fun s => ((f, n), s, Label.none) :: (exitPoints (m.fns g)).map fun x => ((g, x), (f, to), l)) (fun g _ => by
      by_cases hg : m.fns g = []
      · exact ⟨[], if_pos hg⟩
      · obtain ⟨B, i, h1, _⟩ := hs g hg
        exact ⟨_, by rw [if_neg hg, h1]; rfl⟩)
  cases hl : (m.callees f n).mapM (fun g => if m.fns g = [] then some []
    else (start g).map fun s => ((f, n), s, Label.none) :: (exitPoints (m.fns g)).map fun x => ((g, x), (f, to), l)) with
  | none => rw [hl] at hr; exact nomatch hr
  | some es =>
    rw [hl] at hr
    have e : es.flatten = r := Option.some.inj hr
    refine ⟨_, by unfold interEdges; rw [hl]; rfl, fun a b l' => ?_⟩
    rw [List.mem_append, e, hm]
    have h3 : (a, b, l') ∈ (if (m.callees f n).any (fun g => m.fns g = []) || (m.callees f n).isEmpty then [((f, n), (f, to), l)] else []) ↔
        l' = l ∧ a = (f, n) ∧ b = (f, to) ∧ (m.callees f n = [] ∨ ∃ g ∈ m.callees f n, m.fns g = []) := by
      split
      · rename_i h
        rw [Bool.or_eq_true_iff, List.any_eq_true, List.isEmpty_iff] at h
        rw [List.mem_singleton]
        constructor
        · intro e
          injection e with h1 h2
          injection h2 with h2 h4
          exact ⟨h4, h1, h2, h.symm.imp id fun ⟨g, hg, h⟩ => ⟨g, hg, of_decide_eq_true h⟩⟩
        · rintro ⟨rfl, rfl, rfl, _⟩; rfl
      · rename_i h
        constructor
        · exact nofun
        · rintro ⟨_, _, _, h'⟩
          refine absurd ?_ h
          rw [Bool.or_eq_true_iff, List.any_eq_true, List.isEmpty_iff]
          exact h'.symm.imp (fun ⟨g, hg, h⟩ => ⟨g, hg, decide_eq_true h⟩) id
    rw [h3]
    clear h3
    constructor
    · rintro (⟨g, hg, z, hz, hy⟩ | h)
      · by_cases hgn : m.fns g = []
        · rw [if_pos hgn] at hz
          obtain rfl := Option.some.inj hz
          exact nomatch hy
        · rw [if_neg hgn] at hz
          obtain ⟨B, i, h1, h2, h3, h4⟩ := hs g hgn
          rw [h1] at hz
          obtain rfl := Option.some.inj hz
          rcases List.mem_cons.1 hy with hy | hy
          · injection hy with e1 e2
            injection e2 with e2 e3
            exact .inl ⟨e3, e1, g, hg, B, i, h2, h3, h4, e2⟩
          · obtain ⟨x, hx, e⟩ := List.mem_map.1 hy
            injection e with e1 e2
            injection e2 with e2 e3
            exact .inr (.inl ⟨e3.symm, e2.symm, g, hg, x, hx, e1.symm⟩)
      · exact .inr (.inr h)
    · rintro (⟨rfl, rfl, g, hg, B, i, h2, h3, h4, rfl⟩ | ⟨rfl, rfl, g, hg, x, hx, rfl⟩ | h)
      · have hgn : m.fns g ≠ [] := fun e => by rw [e] at h2; exact nomatch h2
        obtain ⟨B', i', h1', h2', h3', h4'⟩ := hs g hgn
        rw [h2] at h2'
        obtain rfl := Option.some.inj h2'
        obtain rfl := First.unique h3 h3' (h4.dbg h2).2 (h4'.dbg h2).2
        exact .inl ⟨g, hg, _, by rw [if_neg hgn, h1']; rfl, List.mem_cons_self⟩
      · have hgn : m.fns g ≠ [] := fun e => by rw [e] at hx; exact nomatch hx
        obtain ⟨B', i', h1', _⟩ := hs g hgn
        exact .inl ⟨g, hg, _, by rw [if_neg hgn, h1']; rfl, List.mem_cons_of_mem _ (List.mem_map.2 ⟨x, hx, rfl⟩)⟩
      · exact .inr h

/-- The edges of one instruction. -/
def C81.Out (ign : Bool) (m : Mod) (lab : Node → Label → Prop) (f : Nat) (n : Node) (a b : GNode) (l : Label) : Prop :=
  (m.call f n = none ∧ a = (f, n) ∧ ∃ k, b = (f, k) ∧ lab k l) ∨
  (m.call f n ≠ none ∧ ∃ k l', lab k l' ∧ C81.Inter ign m f n k l' a b l)

theorem C81.out_edge {ign : Bool} {m : Mod} {lab : Nat → Node → Node → Label → Prop}
    (hw : ∀ f ∈ m.verts, ∀ n, Visible ign (m.fns f) n → m.call f n ≠ none → ∃ k l, lab f n k l) (a b : GNode) (l : Label) :
    (∃ f ∈ m.verts, ∃ n, Visible ign (m.fns f) n ∧ C81.Out ign m (lab f n) f n a b l) ↔ Edge ign m lab a b l := by
  constructor
  · rintro ⟨f, hf, n, hn, ⟨hc, rfl, k, rfl, hs⟩ | ⟨hc, k, l', hs, ⟨rfl, rfl, g, hg, B, i, h1, h2, h3, rfl⟩ | ⟨rfl, rfl, g, hg, x, hx, rfl⟩ |
      ⟨rfl, rfl, rfl, h⟩⟩⟩
    · exact .intra hf hn hc hs
    · exact .call hf hn hc hg h1 h2 h3
    · exact .ret hf hn hc hg hx hs
    · exact .past hf hn hc h hs
  · rintro (⟨hf, hn, hc, hs⟩ | ⟨hf, hn, hc, hg, h1, h2, h3⟩ | ⟨hf, hn, hc, hg, hx, hs⟩ | ⟨hf, hn, hc, h, hs⟩)
    · exact ⟨_, hf, _, hn, .inl ⟨hc, rfl, _, rfl, hs⟩⟩
    · obtain ⟨k, l, hs⟩ := hw _ hf _ hn hc
      exact ⟨_, hf, _, hn, .inr ⟨hc, k, l, hs, .inl ⟨rfl, rfl, _, hg, _, _, h1, h2, h3, rfl⟩⟩⟩
    · exact ⟨_, hf, _, hn, .inr ⟨hc, _, _, hs, .inr (.inl ⟨rfl, rfl, _, hg, _, hx, rfl⟩)⟩⟩
    · exact ⟨_, hf, _, hn, .inr ⟨hc, _, _, hs, .inr (.inr ⟨rfl, rfl, rfl, h⟩)⟩⟩

/-- The edges of an instruction, given the instructions behind it and the labels. -/
theorem C81.list {ign : Bool} {m : Mod} {start : Nat → Option GNode} (hs : C81.Starts ign m start) (f : Nat) (n : Node)
    (ps : List (Node × Label)) :
    ∃ L, (ps.mapM fun p => if (m.call f n).isSome then interEdges start m f n p.1 p.2 else some [((f, n), (f, p.1), p.2)]).map List.flatten =
      some L ∧ ∀ a b l, (a, b, l) ∈ L ↔ C81.Out ign m (fun k l => (k, l) ∈ ps) f n a b l := by
  obtain ⟨r, hr, hm⟩ := C81.mapM (l := ps) (g := fun p => if (m.call f n).isSome then interEdges start m f n p.1 p.2
    else some [((f, n), (f, p.1), p.2)])
    (fun p _ => by
      split
      · obtain ⟨L, h, _⟩ := C81.inter hs f n p.1 p.2; exact ⟨L, h⟩
      · exact ⟨_, rfl⟩)
  refine ⟨r, hr, fun a b l => ?_⟩
  rw [hm]
  cases hc : m.call f n with
  | none =>
    constructor
    · rintro ⟨k, hk, z, hz, hy⟩
      have hz : some [((f, n), (f, k.1), k.2)] = some z := hz
      obtain rfl := Option.some.inj hz
      have e := List.mem_singleton.1 hy
      injection e with e1 e2
      injection e2 with e2 e3
      exact .inl ⟨hc, e1, k.1, e2, e3 ▸ hk⟩
    · rintro (⟨_, rfl, k, rfl, hk⟩ | ⟨h, _⟩)
      · exact ⟨(k, l), hk, _, rfl, List.mem_singleton.2 rfl⟩
      · exact absurd hc h
  | some c =>
    constructor
    · rintro ⟨k, hk, z, hz, hy⟩
      obtain ⟨L, h1, h2⟩ := C81.inter hs f n k.1 k.2
      have hz : interEdges start m f n k.1 k.2 = some z := hz
      rw [h1] at hz
      obtain rfl := Option.some.inj hz
      exact .inr ⟨by rw [hc]; exact nofun, k.1, k.2, hk, (h2 a b l).1 hy⟩
    · rintro (⟨h, _⟩ | ⟨_, k, l', hk, h⟩)
      · rw [hc] at h; exact nomatch h
      · obtain ⟨L, h1, h2⟩ := C81.inter hs f n k l'
        exact ⟨(k, l'), hk, L, h1, (h2 a b l).2 h⟩

/-- From the edges of the instructions to the edges of the graph. -/
theorem C81.graph {ign : Bool} {m : Mod} {lab : Nat → Node → Node → Label → Prop}
    (hw : ∀ f ∈ m.verts, ∀ n, Visible ign (m.fns f) n → m.call f n ≠ none → ∃ k l, lab f n k l) {inst : Nat → Node → Option (List LEdge)}
    (hi : ∀ f ∈ m.verts, ∀ n ∈ instructions (m.fns f), ∃ L, inst f n = some L ∧ ∀ a b l, (a, b, l) ∈ L ↔
      Visible ign (m.fns f) n ∧ C81.Out ign m (lab f n) f n a b l) :
    ∃ E, (m.verts.mapM fun f => ((instructions (m.fns f)).mapM (inst f)).map List.flatten).map List.flatten = some E ∧
      ∀ a b l, (a, b, l) ∈ E ↔ Edge ign m lab a b l := by
  have fn : ∀ f ∈ m.verts, ∃ L, ((instructions (m.fns f)).mapM (inst f)).map List.flatten = some L ∧
      ∀ a b l, (a, b, l) ∈ L ↔ ∃ n, Visible ign (m.fns f) n ∧ C81.Out ign m (lab f n) f n a b l := by
    intro f hf
    obtain ⟨r, h1, h2⟩ := C81.mapM (l := instructions (m.fns f)) (g := inst f)
      (fun n hn => (hi f hf n hn).imp fun _ h => h.1)
    refine ⟨r, h1, fun a b l => ?_⟩
    rw [h2]
    constructor
    · rintro ⟨n, hn, z, hz, hy⟩
      obtain ⟨L, e, h⟩ := hi f hf n hn
      rw [e] at hz
      obtain rfl := Option.some.inj hz
      exact ⟨n, (h a b l).1 hy⟩
    · rintro ⟨n, hv, ho⟩
      have hn := (C81.visible_iff.1 hv).1
      obtain ⟨L, e, h⟩ := hi f hf n hn
      exact ⟨n, hn, L, e, (h a b l).2 ⟨hv, ho⟩⟩
  obtain ⟨r, h1, h2⟩ := C81.mapM (l := m.verts) (g := fun f => ((instructions (m.fns f)).mapM (inst f)).map List.flatten)
    (fun f hf => (fn f hf).imp fun _ h => h.1)
  refine ⟨r, h1, fun a b l => ?_⟩
  rw [h2, ← C81.out_edge hw]
  constructor
  · rintro ⟨f, hf, z, hz, hy⟩
    obtain ⟨L, e, h⟩ := fn f hf
    rw [e] at hz
    obtain rfl := Option.some.inj hz
    exact ⟨f, hf, (h a b l).1 hy⟩
  · rintro ⟨f, hf, ho⟩
    obtain ⟨L, e, h⟩ := fn f hf
    exact ⟨f, hf, L, e, (h a b l).2 ho⟩

theorem C81.mapM_map {α β γ} (h : α → β) (g : β → Option γ) : ∀ l : List α, (l.map h).mapM g = l.mapM fun x => g (h x)
  | [] => rfl
  | x :: l => by rw [List.map_cons, List.mapM_cons, List.mapM_cons, C81.mapM_map h g l]

/-- Behind every call there is an instruction. -/
theorem C81.behind {ign : Bool} {m : Mod} (hw : m.WF) {f : Nat} {n : Node} (hn : Visible ign (m.fns f) n) (hc : m.call f n ≠ none) :
    ∃ k, Visible ign (m.fns f) k ∧ Step ign (m.fns f) n k := by
  obtain ⟨B, hB, hle⟩ := hn.1
  by_cases hlt : n.2 < B.ins.length
  · cases hx : nxt ign B n.2 with
    | none => exact absurd (nxt_none.1 hx) (by omega)
    | some i =>
      have := nxt_iff.1 hx
      refine ⟨(n.1, i), ⟨⟨B, hB, this.1.2.1⟩, fun h => ?_⟩, B, B, hB, hB, .inl ⟨rfl, this.1⟩⟩
      unfold isDbg
      rw [show (m.fns f)[((n.1, i) : Node).1]? = some B from hB]
      exact this.2 h
  · obtain ⟨_, hne⟩ := (hw.call f n B hc hB).resolve_left hlt
    obtain ⟨b, hb⟩ := List.exists_mem_of_ne_nil _ hne
    obtain ⟨i, C, h1, h2, h3⟩ := enter_ok (ign := ign) ((hw.fns f).succs B (List.mem_of_getElem? hB) b hb)
    have h4 := front_iff.1 h3
    refine ⟨(b, i), ⟨⟨C, h1, h4.1.1⟩, fun h => ?_⟩, B, C, hB, h1, .inr ⟨by omega, hb, h4.1⟩⟩
    unfold isDbg
    rw [show (m.fns f)[((b, i) : Node).1]? = some C from h1]
    exact h4.2 h

/-- Specification: as `Lab`, without labels. -/
def Plain (ign : Bool) (m : Mod) (f : Nat) (n k : Node) (l : Label) : Prop :=
  Visible ign (m.fns f) k ∧ Step ign (m.fns f) n k ∧ l = .none

theorem C81.json {ign : Bool} {m : Mod} (hw : m.WF) (hl : ∀ f ∈ m.verts, ∀ n, ¬ Lazy (m.fns f) n) {start : Nat → Option GNode}
    (hs : C81.Starts ign m start) :
    ∃ E, jsonEdges start ign m = some E ∧ ∀ a b, (a, b) ∈ E ↔ ∃ l, Edge ign m (Plain ign m) a b l := by
  obtain ⟨E, h1, h2⟩ := C81.graph (ign := ign) (m := m) (lab := Plain ign m) (inst := jsonInst start ign m)
    (fun f _ n hn hc => by obtain ⟨k, hk, h⟩ := C81.behind hw hn hc; exact ⟨k, .none, hk, h, rfl⟩) (by
    intro f hf n hn
    unfold jsonInst
    cases hd : (ign && isDbg (m.fns f) n) with
    | true => exact ⟨[], rfl, fun a b l => ⟨nofun, fun h => by have := (C81.visible_iff.1 h.1).2; rw [hd] at this; exact nomatch this⟩⟩
    | false =>
      have hv : Visible ign (m.fns f) n := C81.visible_iff.2 ⟨hn, hd⟩
      obtain ⟨ss, hss⟩ := C42.total (hw.fns f) hv
      obtain ⟨L, h1, h2⟩ := C81.list hs f n (ss.map fun k => (k, Label.none))
      rw [C81.mapM_map] at h1
      refine ⟨L, ?_, fun a b l => ?_⟩
      · rw [hss]; exact h1
      · rw [h2]
        have : (fun (k : Node) l => (k, l) ∈ ss.map fun k => (k, Label.none)) = Plain ign m f n := by
          funext k l
          refine propext ⟨fun h => ?_, fun ⟨h1, h2, h3⟩ => ?_⟩
          · obtain ⟨k', hk, e⟩ := List.mem_map.1 h
            injection e with e1 e2
            subst e1; subst e2
            have := (C81.mem_succs (hw.fns f) hv (hl f hf n) hss k').1 hk
            exact ⟨this.1, this.2, rfl⟩
          · subst h3
            exact List.mem_map.2 ⟨k, (C81.mem_succs (hw.fns f) hv (hl f hf n) hss k).2 ⟨h1, h2⟩, rfl⟩
        rw [this]
        exact ⟨fun h => ⟨hv, h⟩, (·.2)⟩)
  cases he : m.verts.mapM fun f => ((instructions (m.fns f)).mapM (jsonInst start ign m f)).map List.flatten with
  | none => rw [he] at h1; exact nomatch h1
  | some es =>
    rw [he] at h1
    have e : es.flatten = E := Option.some.inj h1
    refine ⟨_, by unfold jsonEdges; rw [he]; rfl, fun a b => ?_⟩
    show (a, b) ∈ es.flatten.map _ ↔ _
    rw [e, List.mem_map]
    constructor
    · rintro ⟨⟨a', b', l⟩, h, e⟩
      injection e with e1 e2
      subst e1; subst e2
      exact ⟨l, (h2 _ _ l).1 h⟩
    · rintro ⟨l, h⟩
      exact ⟨(a, b, l), (h2 a b l).2 h, rfl⟩

/-- Two instructions behind one. -/
theorem C81.branch {ign : Bool} {F : Fn} {n : Node} (hn : Visible ign F n) (hl : ¬ Lazy F n) {ss : List Node}
    (hs : succs ign F n = some ss) (x y : Node) : ss = [x, y] ↔ Branch ign F n x y := by
  obtain ⟨B, hB, hle⟩ := hn.1
  have hvis : ∀ k : Node, ∀ C, F[k.1]? = some C → First ign C k.2 → (ign = true → dbgAt C k.2 = false) → Visible ign F k := by
    intro k C hC hf hd
    refine ⟨⟨C, hC, hf.1⟩, fun h => ?_⟩
    unfold isDbg
    rw [hC]
    exact hd h
  have hent : ∀ (b : Nat) (k : Node), enter ign F b = some k → ∃ C, F[k.1]? = some C ∧ k.1 = b ∧ First ign C k.2 ∧ (ign = true → dbgAt C k.2 = false) := by
    intro b k h
    unfold enter at h
    cases hC : F[b]? with
    | none => rw [hC] at h; exact nomatch h
    | some C =>
      rw [hC, Option.bind_some] at h
      cases hf : front ign C with
      | none => rw [hf] at h; exact nomatch h
      | some i =>
        rw [hf] at h
        have e : (b, i) = k := Option.some.inj h
        subst e
        exact ⟨C, hC, rfl, front_iff.1 hf⟩
  have hent' : ∀ (k : Node) C, F[k.1]? = some C → First ign C k.2 → (ign = true → dbgAt C k.2 = false) → enter ign F k.1 = some k := by
    intro k C hC hf hd
    unfold enter
    rw [hC, Option.bind_some, front_iff.2 ⟨hf, hd⟩]
    rfl
  rw [succs_eq, hB] at hs
  simp only at hs
  cases hx : nxt ign B n.2 with
  | some i =>
    rw [hx] at hs
    have hlt : n.2 < B.ins.length := by
      rcases Nat.lt_or_ge n.2 B.ins.length with h | h
      · exact h
      · rw [nxt_none.2 h] at hx; exact nomatch hx
    obtain rfl := Option.some.inj hs
    constructor
    · intro h; injection h with _ h; exact nomatch h
    · rintro ⟨B', C, D, h1, h2, _⟩
      rw [hB] at h1
      obtain rfl := Option.some.inj h1
      omega
  | none =>
    have hlen : n.2 = B.ins.length := Nat.le_antisymm hle (nxt_none.1 hx)
    rw [hx] at hs
    simp only at hs
    rw [if_neg (fun h => hl ⟨B, hB, hlen, h⟩)] at hs
    constructor
    · rintro rfl
      cases hB2 : B.succs with
      | nil => rw [hB2] at hs; exact nomatch hs
      | cons b l =>
        rw [hB2, List.mapM_cons] at hs
        cases hb : enter ign F b with
        | none => rw [hb] at hs; exact nomatch hs
        | some k =>
          cases l with
          | nil => rw [hb] at hs; exact absurd (congrArg List.length (Option.some.inj hs)) (by simp)
          | cons c l =>
            rw [hb, List.mapM_cons] at hs
            cases hc : enter ign F c with
            | none => rw [hc] at hs; exact nomatch hs
            | some k' =>
              cases hl' : l.mapM (enter ign F) with
              | none => rw [hc, hl'] at hs; exact nomatch hs
              | some L =>
                rw [hc, hl'] at hs
                have e : k :: k' :: L = [x, y] := Option.some.inj hs
                injection e with e1 e2
                injection e2 with e2 e3
                subst e1; subst e2; subst e3
                have hln : l = [] := by
                  cases l with
                  | nil => rfl
                  | cons d l =>
                    rw [List.mapM_cons] at hl'
                    cases hd : enter ign F d with
                    | none => rw [hd] at hl'; exact nomatch hl'
                    | some z =>
                      cases hz : l.mapM (enter ign F) with
                      | none => rw [hd, hz] at hl'; exact nomatch hl'
                      | some w => rw [hd, hz] at hl'; exact nomatch (Option.some.inj hl' : z :: w = [])
                subst hln
                obtain ⟨C, h1, h2, h3, h4⟩ := hent b k hb
                obtain ⟨D, h5, h6, h7, h8⟩ := hent c k' hc
                exact ⟨B, C, D, hB, hlen, by rw [hB2, h2, h6], h1, h3, h5, h7, hvis k C h1 h3 h4, hvis k' D h5 h7 h8⟩
    · rintro ⟨B', C, D, h1, h2, h3, h4, h5, h6, h7, h8, h9⟩
      rw [hB] at h1
      obtain rfl := Option.some.inj h1
      rw [h3, List.mapM_cons, hent' x C h4 h5 (h8.dbg h4).2, List.mapM_cons, hent' y D h6 h7 (h9.dbg h6).2] at hs
      exact (Option.some.inj hs).symm

theorem C81.two {ign : Bool} {m : Mod} (hw : m.WF) {f : Nat} {n x y : Node} (hcb : m.call f n ≠ some .callbr)
    (hb : Branch ign (m.fns f) n x y) : m.call f n = none ∨ m.call f n = some .invoke := by
  obtain ⟨B, _, _, h1, h2, _⟩ := hb
  cases hc : m.call f n with
  | none => exact .inl rfl
  | some c =>
    cases c with
    | invoke => exact .inr rfl
    | callbr => exact absurd hc hcb
    | call =>
      rcases hw.call f n B (by rw [hc]; exact nofun) h1 with h | h
      · omega
      · exact absurd hc h.1

theorem C81.lab_plain {ign : Bool} {m : Mod} (hw : m.WF) {f : Nat} {n k : Node}
    (hcb : m.call f n = some .callbr → ¬ ∃ x y, Branch ign (m.fns f) n x y) :
    (∃ l, Lab ign m f n k l) ↔ Visible ign (m.fns f) k ∧ Step ign (m.fns f) n k := by
  constructor
  · rintro ⟨l, ⟨h1, h2, _⟩ | ⟨y, ⟨B, C, D, h1, h2, h3, h4, h5, h6, h7, h8, h9⟩, _⟩ | ⟨x, ⟨B, C, D, h1, h2, h3, h4, h5, h6, h7, h8, h9⟩, _⟩⟩
    · exact ⟨h1, h2⟩
    · exact ⟨h8, B, C, h1, h4, .inr ⟨h2, by rw [h3]; exact List.mem_cons_self, h5⟩⟩
    · exact ⟨h9, B, D, h1, h6, .inr ⟨h2, by rw [h3]; exact List.mem_cons_of_mem _ List.mem_cons_self, h7⟩⟩
  · rintro ⟨hv, hs⟩
    by_cases hb : ∃ x y, Branch ign (m.fns f) n x y
    · obtain ⟨x, y, hb⟩ := hb
      have h2 := C81.two hw (fun h => hcb h ⟨x, y, hb⟩) hb
      have hk : k = x ∨ k = y := by
        obtain ⟨B, C, D, h1, h2, h3, h4, h5, h6, h7, h8, h9⟩ := hb
        obtain ⟨B', K, e1, e2, h⟩ := hs
        rw [h1] at e1
        obtain rfl := Option.some.inj e1
        rcases h with ⟨_, h⟩ | ⟨_, h, hf⟩
        · have := h.1; have := h.2.1; omega
        · rw [h3] at h
          rcases List.mem_cons.1 h with h | h
          · left
            rw [h, h4] at e2
            obtain rfl := Option.some.inj e2
            exact Prod.ext h (First.unique hf h5 (hv.dbg (h ▸ h4)).2 (h8.dbg h4).2)
          · have h := List.mem_singleton.1 h
            right
            rw [h, h6] at e2
            obtain rfl := Option.some.inj e2
            exact Prod.ext h (First.unique hf h7 (hv.dbg (h ▸ h6)).2 (h9.dbg h6).2)
      rcases hk with rfl | rfl
      · rcases h2 with h2 | h2
        · exact ⟨_, .inr (.inl ⟨y, hb, .inr ⟨h2, rfl⟩⟩)⟩
        · exact ⟨_, .inr (.inl ⟨y, hb, .inl ⟨h2, rfl⟩⟩)⟩
      · rcases h2 with h2 | h2
        · exact ⟨_, .inr (.inr ⟨x, hb, .inr ⟨h2, rfl⟩⟩)⟩
        · exact ⟨_, .inr (.inr ⟨x, hb, .inl ⟨h2, rfl⟩⟩)⟩
    · exact ⟨.none, .inl ⟨hv, hs, hb, rfl⟩⟩

/-- The hypotheses on a module: it is well-formed, no branch of an exported function checks whether a static variable has been
initialized (its successors are those of `C42_lazy`), and no `callbr` has two successors. -/
structure C81.Ok (ign : Bool) (m : Mod) : Prop where
  wf : m.WF
  lazy : ∀ f ∈ m.verts, ∀ n, ¬ Lazy (m.fns f) n
  callbr : ∀ f ∈ m.verts, ∀ n, m.call f n = some .callbr → ¬ ∃ x y, Branch ign (m.fns f) n x y

/-- **C81** (dot): the export ends without a null pointer, and its edges, with their labels, are exactly those of the
inter-procedural control-flow graph: control flow within functions, from calls to the first instruction of each callee that has a
body, from each return and resume of a callee to behind the call, and past calls of declarations and calls without known
callee. -/
theorem C81_dot_partial (ign : Bool) (m : Mod) (ok : C81.Ok ign m) :
    ∃ E, dotEdges ign m = some E ∧ ∀ a b l, (a, b, l) ∈ E ↔ Edge ign m (Lab ign m) a b l := by
  refine C81.graph (fun f hf n hn hc => ?_) (fun f hf n hn => ?_)
  · obtain ⟨k, hk⟩ := C81.behind ok.wf hn hc
    exact ⟨k, (C81.lab_plain ok.wf (ok.callbr f hf n)).2 hk⟩
  · unfold dotInst
    cases hd : (ign && isDbg (m.fns f) n) with
    | true => exact ⟨[], rfl, fun a b l => ⟨nofun, fun h => by have := (C81.visible_iff.1 h.1).2; rw [hd] at this; exact nomatch this⟩⟩
    | false =>
      have hv : Visible ign (m.fns f) n := C81.visible_iff.2 ⟨hn, hd⟩
      obtain ⟨ss, hss⟩ := C42.total (ok.wf.fns f) hv
      have hbr := C81.branch hv (ok.lazy f hf n) hss
      by_cases h2 : ∃ x y, ss = [x, y]
      · obtain ⟨x, y, rfl⟩ := h2
        have hb := (hbr x y).1 rfl
        have huniq : ∀ x' y', Branch ign (m.fns f) n x' y' → x' = x ∧ y' = y := by
          intro x' y' h
          have := (hbr x' y').2 h
          injection this with e1 e2
          injection e2 with e2 _
          exact ⟨e1.symm, e2.symm⟩
        rcases C81.two ok.wf (fun h => ok.callbr f hf n h ⟨x, y, hb⟩) hb with hc | hc
        · obtain ⟨L, h1, h2⟩ := C81.list (C81.dotStart_ok ign m) f n [(x, .true_), (y, .false_)]
          refine ⟨L, ?_, fun a b l => ?_⟩
          · rw [← h1, hss, hc]; rfl
          · rw [h2]
            have : (fun (k : Node) l => (k, l) ∈ [(x, Label.true_), (y, .false_)]) = Lab ign m f n := by
              funext k l
              refine propext ⟨fun h => ?_, fun h => ?_⟩
              · rcases List.mem_cons.1 h with h | h
                · injection h with e1 e2
                  subst e1; subst e2
                  exact .inr (.inl ⟨y, hb, .inr ⟨hc, rfl⟩⟩)
                · injection List.mem_singleton.1 h with e1 e2
                  subst e1; subst e2
                  exact .inr (.inr ⟨x, hb, .inr ⟨hc, rfl⟩⟩)
              · rcases h with ⟨_, _, h, _⟩ | ⟨y', h, h'⟩ | ⟨x', h, h'⟩
                · exact absurd ⟨x, y, hb⟩ h
                · obtain ⟨rfl, _⟩ := huniq _ _ h
                  rcases h' with ⟨h', _⟩ | ⟨_, rfl⟩
                  · rw [hc] at h'; exact nomatch h'
                  · exact List.mem_cons_self
                · obtain ⟨_, rfl⟩ := huniq _ _ h
                  rcases h' with ⟨h', _⟩ | ⟨_, rfl⟩
                  · rw [hc] at h'; exact nomatch h'
                  · exact List.mem_cons_of_mem _ List.mem_cons_self
            rw [this]
            exact ⟨fun h => ⟨hv, h⟩, (·.2)⟩
        · obtain ⟨L, h1, h2⟩ := C81.list (C81.dotStart_ok ign m) f n [(x, .normal), (y, .unwind)]
          refine ⟨L, ?_, fun a b l => ?_⟩
          · rw [← h1, hss, hc]
            obtain ⟨L1, e1, _⟩ := C81.inter (C81.dotStart_ok ign m) f n x .normal
            obtain ⟨L2, e2, _⟩ := C81.inter (C81.dotStart_ok ign m) f n y .unwind
            show (interEdges (dotStart ign m) m f n x .normal).bind _ = Option.map _ (List.mapM (fun p : Node × Label =>
              interEdges (dotStart ign m) m f n p.1 p.2) [(x, .normal), (y, .unwind)])
            rw [List.mapM_cons, List.mapM_cons, List.mapM_nil, e1, e2]
            show some (L1 ++ L2) = some [L1, L2].flatten
            simp
          · rw [h2]
            have : (fun (k : Node) l => (k, l) ∈ [(x, Label.normal), (y, .unwind)]) = Lab ign m f n := by
              funext k l
              refine propext ⟨fun h => ?_, fun h => ?_⟩
              · rcases List.mem_cons.1 h with h | h
                · injection h with e1 e2
                  subst e1; subst e2
                  exact .inr (.inl ⟨y, hb, .inl ⟨hc, rfl⟩⟩)
                · injection List.mem_singleton.1 h with e1 e2
                  subst e1; subst e2
                  exact .inr (.inr ⟨x, hb, .inl ⟨hc, rfl⟩⟩)
              · rcases h with ⟨_, _, h, _⟩ | ⟨y', h, h'⟩ | ⟨x', h, h'⟩
                · exact absurd ⟨x, y, hb⟩ h
                · obtain ⟨rfl, _⟩ := huniq _ _ h
                  rcases h' with ⟨_, rfl⟩ | ⟨h', _⟩
                  · exact List.mem_cons_self
                  · rw [hc] at h'; exact nomatch h'
                · obtain ⟨_, rfl⟩ := huniq _ _ h
                  rcases h' with ⟨_, rfl⟩ | ⟨h', _⟩
                  · exact List.mem_cons_of_mem _ List.mem_cons_self
                  · rw [hc] at h'; exact nomatch h'
            rw [this]
            exact ⟨fun h => ⟨hv, h⟩, (·.2)⟩
      · have hnb : ¬ ∃ x y, Branch ign (m.fns f) n x y := fun ⟨x, y, h⟩ => h2 ⟨x, y, (hbr x y).2 h⟩
        obtain ⟨L, h1, h3⟩ := C81.list (C81.dotStart_ok ign m) f n (ss.map fun k => (k, Label.none))
        rw [C81.mapM_map] at h1
        refine ⟨L, ?_, fun a b l => ?_⟩
        · rw [← h1, hss]
          match ss, h2 with
          | [], _ => rfl
          | [_], _ => rfl
          | [x, y], h2 => exact absurd ⟨x, y, rfl⟩ h2
          | _ :: _ :: _ :: _, _ => rfl
        · rw [h3]
          have : (fun (k : Node) l => (k, l) ∈ ss.map fun k => (k, Label.none)) = Lab ign m f n := by
            funext k l
            refine propext ⟨fun h => ?_, fun h => ?_⟩
            · obtain ⟨k', hk, e⟩ := List.mem_map.1 h
              injection e with e1 e2
              subst e1; subst e2
              have := (C81.mem_succs (ok.wf.fns f) hv (ok.lazy f hf n) hss k').1 hk
              exact .inl ⟨this.1, this.2, hnb, rfl⟩
            · rcases h with ⟨h1, h2, _, rfl⟩ | ⟨y, h, _⟩ | ⟨x, h, _⟩
              · exact List.mem_map.2 ⟨k, (C81.mem_succs (ok.wf.fns f) hv (ok.lazy f hf n) hss k).2 ⟨h1, h2⟩, rfl⟩
              · exact absurd ⟨_, _, h⟩ hnb
              · exact absurd ⟨_, _, h⟩ hnb
          rw [this]
          exact ⟨fun h => ⟨hv, h⟩, (·.2)⟩

/-- **C81** (JSON): the edges are those of the inter-procedural control-flow graph, if debug instructions are ignored or no
function begins with one. -/
theorem C81_json_partial (ign : Bool) (m : Mod) (hw : m.WF) (hl : ∀ f ∈ m.verts, ∀ n, ¬ Lazy (m.fns f) n)
    (hd : ign = true ∨ ∀ g B, (m.fns g)[0]? = some B → dbgAt B 0 = false) :
    ∃ E, jsonIR ign m = some E ∧ ∀ a b, (a, b) ∈ E ↔ ∃ l, Edge ign m (Plain ign m) a b l := by
  have : irStart m = dotStart ign m := by
    funext g
    unfold irStart dotStart front
    cases hB : (m.fns g)[0]? with
    | none => rfl
    | some B =>
      rcases hd with rfl | hd
      · rfl
      · rw [Option.bind_some, Option.bind_some, hd g B hB, Bool.and_false]
  unfold jsonIR
  rw [this]
  exact C81.json hw hl (C81.dotStart_ok ign m)

/-- **C81** (JSON with source code information): as `C81_json_partial`, if the first instruction of each function that is no debug
instruction has source code information and debug instructions are ignored. -/
theorem C81_sci_partial (m : Mod) (hw : m.WF) (hl : ∀ f ∈ m.verts, ∀ n, ¬ Lazy (m.fns f) n)
    (hi : ∀ g B i, (m.fns g)[0]? = some B → First true B i → dbgAt B i = false → m.noInfo g (0, i) = false) :
    ∃ E, jsonSCI true m = some E ∧ ∀ a b, (a, b) ∈ E ↔ ∃ l, Edge true m (Plain true m) a b l := by
  have : sciStart m = dotStart true m := by
    funext g
    unfold sciStart dotStart
    cases hB : (m.fns g)[0]? with
    | none => rfl
    | some B =>
      obtain ⟨i, h1, h2, h3⟩ := front_ok true B
      rw [Option.bind_some, h1]
      show some (g, 0, ((List.range B.ins.length).find? fun i => !(m.noInfo g (0, i) || dbgAt B i)).getD B.ins.length) = some (g, 0, i)
      rcases Nat.lt_or_ge i B.ins.length with hlt | hge
      · have : (List.range B.ins.length).find? (fun i => !(m.noInfo g (0, i) || dbgAt B i)) = some i := by
          rw [List.find?_range_eq_some]
          refine ⟨?_, List.mem_range.2 hlt, fun j hj => ?_⟩
          · rw [hi g B i hB h2 (h3 rfl), h3 rfl]; rfl
          · rw [(h2.2 j hj).2, Bool.or_true]; rfl
        rw [this]; rfl
      · have e : i = B.ins.length := Nat.le_antisymm h2.1 hge
        have : (List.range B.ins.length).find? (fun i => !(m.noInfo g (0, i) || dbgAt B i)) = none := by
          rw [List.find?_eq_none]
          intro j hj
          rw [(h2.2 j (by rw [e]; exact List.mem_range.1 hj)).2, Bool.or_true]
          exact nofun
        rw [this, e]; rfl
  unfold jsonSCI
  rw [this]
  exact C81.json hw hl (C81.dotStart_ok true m)

/-- **C81**: the dot export and the JSON export have the same edges. -/
theorem C81_agree_partial (ign : Bool) (m : Mod) (ok : C81.Ok ign m)
    (hd : ign = true ∨ ∀ g B, (m.fns g)[0]? = some B → dbgAt B 0 = false) :
    ∃ E J, dotEdges ign m = some E ∧ jsonIR ign m = some J ∧ ∀ a b, (∃ l, (a, b, l) ∈ E) ↔ (a, b) ∈ J := by
  obtain ⟨E, h1, h2⟩ := C81_dot_partial ign m ok
  obtain ⟨J, h3, h4⟩ := C81_json_partial ign m ok.wf ok.lazy hd
  refine ⟨E, J, h1, h3, fun a b => ?_⟩
  rw [h4]
  have lp := fun f (hf : f ∈ m.verts) n k => C81.lab_plain ok.wf (k := k) (ok.callbr f hf n)
  constructor
  · rintro ⟨l, h⟩
    rcases (h2 a b l).1 h with ⟨hf, hn, hc, hs⟩ | ⟨hf, hn, hc, hg, e1, e2, e3⟩ | ⟨hf, hn, hc, hg, hx, hs⟩ | ⟨hf, hn, hc, hp, hs⟩
    · have := (lp _ hf _ _).1 ⟨_, hs⟩; exact ⟨_, .intra hf hn hc ⟨this.1, this.2, rfl⟩⟩
    · exact ⟨_, .call hf hn hc hg e1 e2 e3⟩
    · have := (lp _ hf _ _).1 ⟨_, hs⟩; exact ⟨_, .ret hf hn hc hg hx ⟨this.1, this.2, rfl⟩⟩
    · have := (lp _ hf _ _).1 ⟨_, hs⟩; exact ⟨_, .past hf hn hc hp ⟨this.1, this.2, rfl⟩⟩
  · rintro ⟨l, ⟨hf, hn, hc, hs⟩ | ⟨hf, hn, hc, hg, e1, e2, e3⟩ | ⟨hf, hn, hc, hg, hx, hs⟩ | ⟨hf, hn, hc, h, hs⟩⟩
    · obtain ⟨l, hl⟩ := (lp _ hf _ _).2 ⟨hs.1, hs.2.1⟩; exact ⟨l, (h2 _ _ l).2 (.intra hf hn hc hl)⟩
    · exact ⟨_, (h2 _ _ _).2 (.call hf hn hc hg e1 e2 e3)⟩
    · obtain ⟨l, hl⟩ := (lp _ hf _ _).2 ⟨hs.1, hs.2.1⟩; exact ⟨l, (h2 _ _ l).2 (.ret hf hn hc hg hx hl)⟩
    · obtain ⟨l, hl⟩ := (lp _ hf _ _).2 ⟨hs.1, hs.2.1⟩; exact ⟨l, (h2 _ _ l).2 (.past hf hn hc h hl)⟩

/-- **C81**: the nodes of the dot export are the instructions of the exported functions, without the ignored ones. -/
theorem C81_nodes (ign : Bool) (m : Mod) (a : GNode) : a ∈ dotNodes ign m ↔ a.1 ∈ m.verts ∧ Visible ign (m.fns a.1) a.2 := by
  unfold dotNodes
  rw [List.mem_flatMap]
  constructor
  · rintro ⟨f, hf, h⟩
    obtain ⟨n, hn, rfl⟩ := List.mem_map.1 h
    obtain ⟨h1, h2⟩ := List.mem_filter.1 hn
    exact ⟨hf, C81.visible_iff.2 ⟨h1, by cases h : (ign && isDbg (m.fns f) n) <;> simp_all⟩⟩
  · rintro ⟨hf, hv⟩
    obtain ⟨h1, h2⟩ := C81.visible_iff.1 hv
    exact ⟨a.1, hf, List.mem_map.2 ⟨a.2, List.mem_filter.2 ⟨h1, by rw [h2]; rfl⟩, rfl⟩⟩

/-- **C81**: every edge of the dot export joins nodes that are written, if the callees with a body are exported. -/
theorem C81_closed_partial (ign : Bool) (m : Mod) (ok : C81.Ok ign m)
    (hc : ∀ f n g, g ∈ m.callees f n → m.fns g ≠ [] → g ∈ m.verts) :
    ∃ E, dotEdges ign m = some E ∧ ∀ a b l, (a, b, l) ∈ E → a ∈ dotNodes ign m ∧ b ∈ dotNodes ign m := by
  obtain ⟨E, h1, h2⟩ := C81_dot_partial ign m ok
  refine ⟨E, h1, fun a b l h => ?_⟩
  rw [C81_nodes, C81_nodes]
  have lp := fun f (hf : f ∈ m.verts) n k => C81.lab_plain ok.wf (k := k) (ok.callbr f hf n)
  rcases (h2 a b l).1 h with ⟨hf, hn, _, hs⟩ | ⟨hf, hn, _, hg, e1, e2, e3⟩ | ⟨hf, hn, _, hg, hx, hs⟩ | ⟨hf, hn, _, h, hs⟩
  · exact ⟨⟨hf, hn⟩, hf, ((lp _ hf _ _).1 ⟨_, hs⟩).1⟩
  · exact ⟨⟨hf, hn⟩, hc _ _ _ hg (fun e => by rw [e] at e1; exact nomatch e1), e3⟩
  · refine ⟨⟨hc _ _ _ hg (fun e => by rw [e] at hx; exact nomatch hx), ?_⟩, hf, ((lp _ hf _ _).1 ⟨_, hs⟩).1⟩
    unfold exitPoints at hx
    obtain ⟨⟨B, b⟩, hp, e⟩ := List.mem_map.1 hx
    have hB := List.mem_zipIdx_iff_getElem?.1 (List.mem_filter.1 hp).1
    subst e
    refine ⟨⟨B, hB, Nat.le_refl _⟩, fun _ => ?_⟩
    unfold isDbg
    rw [show _[((b, termOf B) : Node).1]? = some B from hB]
    exact dbgAt_term B (Nat.le_refl _)
  · exact ⟨⟨hf, hn⟩, hf, ((lp _ hf _ _).1 ⟨_, hs⟩).1⟩

/-- `main` calls `g` (twice: at position 1, and with an `invoke` in block 0), then branches; `g` has a body with a debug instruction
in front; `h` is a declaration. -/
def C81.prog : Mod where
  fns f := match f with
    | 0 => [⟨[.dbg, .plain, .plain], .other, [1, 2]⟩, ⟨[.plain], .br false, [2, 3]⟩, ⟨[], .resume, []⟩, ⟨[], .ret, []⟩]
    | 1 => [⟨[.dbg, .plain], .br false, [1, 2]⟩, ⟨[.dbg], .ret, []⟩, ⟨[], .resume, []⟩]
    | _ => []
  verts := [0, 1]
  call f n := if f = 0 then (if n = (0, 1) ∨ n = (0, 2) then some .call else if n = (0, 3) then some .invoke else none) else none
  callees f n := if f = 0 then (if n = (0, 1) then [1] else if n = (0, 2) then [2] else if n = (0, 3) then [1, 2] else []) else []
  noInfo _ _ := false

theorem C81.prog_wf : C81.prog.WF where
  fns f := by
    match f with
    | 0 => exact ⟨by decide, by decide⟩
    | 1 => exact ⟨by decide, by decide⟩
    | _ + 2 => exact ⟨nofun, nofun⟩
  call f n B hc hB := by
    unfold C81.prog at hc hB ⊢
    simp only at hc hB ⊢
    split at hc
    · rename_i hf
      subst hf
      split at hc
      · rename_i hn
        rcases hn with rfl | rfl <;> (obtain rfl := Option.some.inj hB; left; decide)
      · split at hc
        · rename_i hn
          subst hn
          obtain rfl := Option.some.inj hB
          right
          decide
        · exact absurd rfl hc
    · exact absurd rfl hc

theorem C81.prog_lazy : ∀ f ∈ C81.prog.verts, ∀ n, ¬ Lazy (C81.prog.fns f) n := by
  intro f hf n ⟨B, hB, _, hb⟩
  have : ∀ f ∈ [0, 1], ∀ B ∈ C81.prog.fns f, B.term ≠ .br true := by decide
  exact this f hf B (List.mem_of_getElem? hB) hb

theorem C81.prog_ok (ign : Bool) : C81.Ok ign C81.prog where
  wf := C81.prog_wf
  lazy := C81.prog_lazy
  callbr f _ n h := by
    unfold C81.prog at h
    simp only at h
    split at h
    · split at h
      · exact nomatch h
      · split at h <;> exact nomatch h
    · exact nomatch h

example : C81.Ok true C81.prog ∧ C81.Ok false C81.prog := ⟨C81.prog_ok _, C81.prog_ok _⟩

/-- What the program gives. -/
example : dotEdges true C81.prog = some
    [((0, 0, 1), (1, 0, 1), .none), ((1, 1, 1), (0, 0, 2), .none), ((1, 2, 0), (0, 0, 2), .none),
     ((0, 0, 2), (0, 0, 3), .none),
     ((0, 0, 3), (1, 0, 1), .none), ((1, 1, 1), (0, 1, 0), .normal), ((1, 2, 0), (0, 1, 0), .normal), ((0, 0, 3), (0, 1, 0), .normal),
     ((0, 0, 3), (1, 0, 1), .none), ((1, 1, 1), (0, 2, 0), .unwind), ((1, 2, 0), (0, 2, 0), .unwind), ((0, 0, 3), (0, 2, 0), .unwind),
     ((0, 1, 0), (0, 1, 1), .none), ((0, 1, 1), (0, 2, 0), .true_), ((0, 1, 1), (0, 3, 0), .false_),
     ((1, 0, 1), (1, 0, 2), .none), ((1, 0, 2), (1, 1, 1), .true_), ((1, 0, 2), (1, 2, 0), .false_)] := by decide +kernel

example : ∃ E J, dotEdges true C81.prog = some E ∧ jsonIR true C81.prog = some J ∧ ∀ a b, (∃ l, (a, b, l) ∈ E) ↔ (a, b) ∈ J :=
  C81_agree_partial true C81.prog (C81.prog_ok _) (.inl rfl)

example : ∃ E, dotEdges true C81.prog = some E ∧ ∀ a b l, (a, b, l) ∈ E → a ∈ dotNodes true C81.prog ∧ b ∈ dotNodes true C81.prog :=
  C81_closed_partial true C81.prog (C81.prog_ok _) (by
    intro f n g hg hb
    match g with
    | 0 => exact List.mem_cons_self
    | 1 => exact List.mem_cons_of_mem _ List.mem_cons_self
    | _ + 2 => exact absurd rfl hb)

example : ∃ E, jsonSCI true C81.prog = some E ∧ ∀ a b, (a, b) ∈ E ↔ ∃ l, Edge true C81.prog (Plain true C81.prog) a b l :=
  C81_sci_partial C81.prog C81.prog_wf C81.prog_lazy (fun _ _ _ _ _ _ => rfl)

/-- A function whose block ends with a `callbr` of function 1, with two successors. -/
def C81.asmProg : Mod where
  fns f := match f with
    | 0 => [⟨[], .other, [1, 2]⟩, ⟨[], .ret, []⟩, ⟨[], .ret, []⟩]
    | 1 => [⟨[], .ret, []⟩]
    | _ => []
  verts := [0, 1]
  call f n := if f = 0 ∧ n = (0, 0) then some .callbr else none
  callees f n := if f = 0 ∧ n = (0, 0) then [1] else []
  noInfo _ _ := false

/-- **C81** is false without the condition on `callbr`: with two successors, the dot export writes a branch with the labels `true` and
`false`, and neither the edge to the callee nor those from its exits, which the JSON export has. -/
theorem C81_callbr_false : dotEdges true C81.asmProg = some [((0, 0, 0), (0, 1, 0), .true_), ((0, 0, 0), (0, 2, 0), .false_)] ∧
    jsonIR true C81.asmProg = some [((0, 0, 0), (1, 0, 0)), ((1, 0, 0), (0, 1, 0)), ((0, 0, 0), (1, 0, 0)), ((1, 0, 0), (0, 2, 0))] ∧
    Edge true C81.asmProg (Lab true C81.asmProg) (0, 0, 0) (1, 0, 0) .none ∧
    ¬ Edge true C81.asmProg (Lab true C81.asmProg) (0, 0, 0) (0, 1, 0) .true_ := by
  refine ⟨by decide +kernel, by decide +kernel, ?_, fun h => ?_⟩
  · exact Edge.call (f := 0) (n := (0, 0)) (g := 1) (i := 0) List.mem_cons_self ⟨⟨_, rfl, Nat.le_refl _⟩, fun _ => rfl⟩ (by decide) (by decide)
      rfl ⟨Nat.le_refl _, fun k hk => absurd hk (Nat.not_lt_zero k)⟩ ⟨⟨_, rfl, Nat.le_refl _⟩, fun _ => rfl⟩
  · rcases h with ⟨_, _, hc, _⟩ | _ | ⟨_, _, _, hg, _, _⟩ | ⟨_, _, _, h, _⟩
    · exact absurd hc (by decide)
    · unfold C81.asmProg at hg
      simp only at hg
      split at hg
      · exact absurd hg (by decide)
      · exact nomatch hg
    · rcases h with h | ⟨g, hg, h⟩
      · exact absurd h (by decide)
      · have : g = 1 := List.mem_singleton.1 hg
        subst this
        exact absurd h (by decide)

/-- **C81** (JSON) is false if debug instructions are kept and a function begins with one: the call edge leads behind it, so that no
edge leads to the start of the callee. -/
theorem C81_json_false : (∃ E, jsonIR false C81.prog = some E ∧ ((0, 0, 1), (1, 0, 1)) ∈ E ∧ ∀ a, (a, (1, 0, 0)) ∉ E) ∧
    ∃ E, dotEdges false C81.prog = some E ∧ ((0, 0, 1), (1, 0, 0), .none) ∈ E := by
  refine ⟨⟨(jsonIR false C81.prog).getD [], by decide +kernel, by decide +kernel, fun a h => ?_⟩,
    (dotEdges false C81.prog).getD [], by decide +kernel, by decide +kernel⟩
  have : ∀ e ∈ (jsonIR false C81.prog).getD [], e.2 ≠ (1, 0, 0) := by decide +kernel
  exact this (a, (1, 0, 0)) h rfl

/-- The program, with instruction `(0, 1)` of `g` without source code information. -/
def C81.noInfoProg : Mod := { C81.prog with noInfo := fun g n => g = 1 ∧ n = (0, 1) }

/-- **C81** (JSON with source code information) is false if the first instruction of a callee has no such information: the call
edge skips it, and it remains in the graph without an edge to it. -/
theorem C81_sci_false : ∃ E, jsonSCI true C81.noInfoProg = some E ∧ ((0, 0, 1), (1, 0, 2)) ∈ E ∧ ((1, 0, 1), (1, 0, 2)) ∈ E ∧
    ∀ e ∈ E, e.2 ≠ (1, 0, 1) := by
  refine ⟨(jsonSCI true C81.noInfoProg).getD [], by decide +kernel, by decide +kernel, by decide +kernel, by decide +kernel⟩

/-- A `switch` with a default and one case. -/
def C81.switchProg : Mod where
  fns f := if f = 0 then [⟨[], .other, [1, 2]⟩, ⟨[], .ret, []⟩, ⟨[], .ret, []⟩] else []
  verts := [0]
  call _ _ := none
  callees _ _ := []
  noInfo _ _ := false

/-- **C81**: the labels do not tell branches: a `switch` with one case is written as a branch that goes to the default if it is
true. -/
theorem C81_switch_false : dotEdges true C81.switchProg = some [((0, 0, 0), (0, 1, 0), .true_), ((0, 0, 0), (0, 2, 0), .false_)] := by
  decide +kernel

/-- **C81**: the labels of return edges do not tell how the callee ended: its return leads to the unwind destination of an
`invoke`, and its resume to the normal one. -/
theorem C81_unwind_false : ∃ E, dotEdges true C81.prog = some E ∧ exitPoints (C81.prog.fns 1) = [(1, 1), (2, 0)] ∧
    ((C81.prog.fns 1)[1]?.map Blk.term) = some .ret ∧ ((1, 1, 1), (0, 2, 0), .unwind) ∈ E ∧
    ((C81.prog.fns 1)[2]?.map Blk.term) = some .resume ∧ ((1, 2, 0), (0, 1, 0), .normal) ∈ E := by
  refine ⟨(dotEdges true C81.prog).getD [], by decide +kernel, by decide +kernel, by decide +kernel, by decide +kernel,
    by decide +kernel, by decide +kernel⟩

end Phasar.CFG
