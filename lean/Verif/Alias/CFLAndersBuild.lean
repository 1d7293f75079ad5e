import Verif.Alias.CFLAndersAttr
import Verif.Alias.CFLAndersSpec

/-! # What the graph of the CFL-based alias analysis contains -/
namespace Phasar.CFLAnders

/-- The functions for which the analysis answers correctly: no address becomes an integer, no `cmpxchg`, no constant
expression `inttoptr`; calls are not marked `noalias`, and those marked read-only have no pointer argument or no pointer
result.  Arguments and results of `inttoptr` are not globals. -/
structure Plain (f : Fn) : Prop where
  args : ∀ v ∈ f.args, f.isGlobal v = false
  intExpr : ∀ v, f.isIntExpr v = false
  ptrToInt : ∀ p, Instr.ptrToInt p ∉ f.body
  cmpXchg : ∀ p v x, Instr.cmpXchg p v x ∉ f.body
  intToPtr : ∀ x, Instr.intToPtr x ∈ f.body → f.isGlobal x = false
  call : ∀ args ret ro na, Instr.call args ret ro na ∈ f.body → na = false ∧ (ro = true → args = [] ∨ ret = none)

/-- A graph that contains another one. -/
structure GLe (g g' : Graph) : Prop where
  log : ∀ e ∈ g.log, e ∈ g'.log
  edges : ∀ e ∈ g.edges, e ∈ g'.edges

theorem GLe.refl (g : Graph) : GLe g g := ⟨fun _ h => h, fun _ h => h⟩

theorem GLe.trans {a b c : Graph} (h : GLe a b) (h' : GLe b c) : GLe a c :=
  ⟨fun e he => h'.log e (h.log e he), fun e he => h'.edges e (h.edges e he)⟩

theorem add_le (g : Graph) (n : Node) (a : Attr) : GLe g (g.add n a) :=
  ⟨fun _ h => List.mem_append_left _ h, fun _ h => h⟩

theorem edge_le (g : Graph) (s t : Node) : GLe g (g.edge s t) :=
  ⟨fun _ h => h, fun _ h => List.mem_append_left _ h⟩

theorem add_mem (g : Graph) (n : Node) (a : Attr) : (n, a) ∈ (g.add n a).log := by simp [Graph.add]

theorem edge_mem (g : Graph) (s t : Node) : (s, t) ∈ (g.edge s t).edges := by simp [Graph.edge]

theorem foldl_le {α : Type} {h : Graph → α → Graph} (hh : ∀ g a, GLe g (h g a)) : ∀ (l : List α) (g : Graph), GLe g (l.foldl h g)
  | [], g => .refl g
  | a :: l, g => by rw [List.foldl_cons]; exact (hh g a).trans (foldl_le hh l _)

/-- What one element of a list leads to is there at the end. -/
theorem foldl_mem {α : Type} {h : Graph → α → Graph} (hh : ∀ g a, GLe g (h g a)) {a : α} :
    ∀ (l : List α) (g : Graph), a ∈ l → ∃ g', GLe (h g' a) (l.foldl h g)
  | [], _, h => (List.not_mem_nil h).elim
  | b :: l, g, hm => by
    rw [List.foldl_cons]
    rcases List.mem_cons.1 hm with rfl | hm
    · exact ⟨g, foldl_le hh l _⟩
    · exact foldl_mem hh l _ hm

variable (f : Fn)

theorem addNode_le (g : Graph) (v : Nat) (a : Attr) : GLe g (addNode f g v a) := by
  unfold addNode
  split
  · split
    · exact add_le ..
    · exact (add_le ..).trans (add_le ..)
  · split <;> exact add_le ..

theorem addAssign_le (g : Graph) (y x : Nat) : GLe g (addAssignEdge f g y x) := by
  unfold addAssignEdge
  dsimp only
  split
  · exact addNode_le ..
  · exact ((addNode_le f g y _).trans (addNode_le ..)).trans (edge_le ..)

theorem addLoad_le (g : Graph) (p x : Nat) : GLe g (addLoadEdge f g p x) :=
  (((addNode_le f g p _).trans (addNode_le ..)).trans (add_le ..)).trans (edge_le ..)

theorem addStore_le (g : Graph) (v p : Nat) : GLe g (addStoreEdge f g v p) :=
  (((addNode_le f g v _).trans (addNode_le ..)).trans (add_le ..)).trans (edge_le ..)

theorem markArg_le (g : Graph) (v : Nat) : GLe g (markArg g v) := (add_le ..).trans (add_le ..)

theorem addArgument_le (g : Graph) (v : Nat) : GLe g (addArgument g v) := (add_le ..).trans (add_le ..)

/-- The parts of `visitCall`. -/
def callA (g : Graph) (args : List Nat) : Graph := args.foldl (fun g v => addNode f g v) g
def callB (g : Graph) : Option Nat → Graph
  | some x => addNode f g x
  | none => g
def callC (g : Graph) (args : List Nat) (ro : Bool) : Graph := if ro then g else args.foldl markArg g
def callD (g : Graph) (na : Bool) : Option Nat → Graph
  | some x => if na then g else g.add ⟨x, 0⟩ { unk := true }
  | none => g

theorem visitCall_eq (g : Graph) (args : List Nat) (ret : Option Nat) (ro na : Bool) :
    visitCall f g args ret ro na = callD (callC (callB f (callA f g args) ret) args ro) na ret := by
  cases ret <;> rfl

theorem callA_le (g : Graph) (args : List Nat) : GLe g (callA f g args) := foldl_le (fun g v => addNode_le f g v _) _ _
theorem callB_le (g : Graph) (r : Option Nat) : GLe g (callB f g r) := by
  cases r
  · exact .refl _
  · exact addNode_le ..
theorem callC_le (g : Graph) (args : List Nat) (ro : Bool) : GLe g (callC g args ro) := by
  unfold callC; split
  · exact .refl _
  · exact foldl_le markArg_le _ _
theorem callD_le (g : Graph) (na : Bool) (r : Option Nat) : GLe g (callD g na r) := by
  cases r
  · exact .refl _
  · unfold callD; dsimp only; split
    · exact .refl _
    · exact add_le ..

theorem visit_le (g : Graph) (i : Instr) : GLe g (visit f g i) := by
  cases i with
  | alloca x => exact addNode_le ..
  | assign froms x => exact foldl_le (fun g y => addAssign_le f g y x) _ _
  | load p x => exact addLoad_le ..
  | store v p => exact addStore_le ..
  | ptrToInt p => exact addNode_le ..
  | intToPtr x => exact addNode_le ..
  | malloc x => exact addNode_le ..
  | call args ret ro na =>
    simp only [visit, visitCall_eq]
    exact (((callA_le f g args).trans (callB_le ..)).trans (callC_le ..)).trans (callD_le ..)
  | cmpXchg p v x => exact addStore_le ..
  | ret v => exact addNode_le ..

/-- An instruction has been visited. -/
theorem visited {i : Instr} (h : i ∈ f.body) : ∃ g, GLe (visit f g i) (buildGraph f) := by
  obtain ⟨g, hg⟩ := foldl_mem (visit_le f) f.body {} h
  exact ⟨g, hg.trans (foldl_le addArgument_le _ _)⟩

theorem build_assign {froms : List Nat} {x y : Nat} (h : Instr.assign froms x ∈ f.body) (hy : y ∈ froms) (hne : x ≠ y) :
    (⟨y, 0⟩, ⟨x, 0⟩) ∈ (buildGraph f).edges := by
  obtain ⟨g, hg⟩ := visited f h
  obtain ⟨g', hg'⟩ := foldl_mem (fun g y => addAssign_le f g y x) froms g hy
  refine (hg'.trans hg).edges _ ?_
  unfold addAssignEdge
  dsimp only
  rw [if_neg hne]
  exact edge_mem ..

theorem build_load {p x : Nat} (h : Instr.load p x ∈ f.body) :
    (⟨p, 1⟩, ⟨x, 0⟩) ∈ (buildGraph f).edges ∧ (buildGraph f).has ⟨p, 1⟩ = true := by
  obtain ⟨g, hg⟩ := visited f h
  exact ⟨hg.edges _ (edge_mem ..), has_of_mem (hg.log _ ((edge_le ..).log _ (add_mem ..)))⟩

theorem build_store {v p : Nat} (h : Instr.store v p ∈ f.body) :
    (⟨v, 0⟩, ⟨p, 1⟩) ∈ (buildGraph f).edges ∧ (buildGraph f).has ⟨p, 1⟩ = true := by
  obtain ⟨g, hg⟩ := visited f h
  exact ⟨hg.edges _ (edge_mem ..), has_of_mem (hg.log _ ((edge_le ..).log _ (add_mem ..)))⟩

theorem build_intToPtr (hf : Plain f) {x : Nat} (h : Instr.intToPtr x ∈ f.body) :
    (⟨x, 0⟩, { unk := true }) ∈ (buildGraph f).log := by
  obtain ⟨g, hg⟩ := visited f h
  refine hg.log _ ?_
  simp only [visit, addNode, hf.intToPtr x h, hf.intExpr x]
  exact add_mem ..

theorem build_call {args : List Nat} {ret : Option Nat} {ro na : Bool} (h : Instr.call args ret ro na ∈ f.body) :
    (ro = false → ∀ v ∈ args, (⟨v, 0⟩, { esc := true }) ∈ (buildGraph f).log ∧ (⟨v, 1⟩, { unk := true }) ∈ (buildGraph f).log) ∧
    (na = false → ∀ x, ret = some x → (⟨x, 0⟩, { unk := true }) ∈ (buildGraph f).log) := by
  obtain ⟨g, hg⟩ := visited f h
  simp only [visit, visitCall_eq] at hg
  refine ⟨?_, ?_⟩
  · rintro rfl v hv
    have hl := (callD_le _ na ret).trans hg
    obtain ⟨g', hg'⟩ := foldl_mem markArg_le args (callB f (callA f g args) ret) hv
    have hl := hg'.trans hl
    exact ⟨hl.log _ ((add_le ..).log _ (add_mem ..)), hl.log _ (add_mem ..)⟩
  · rintro rfl x rfl
    exact hg.log _ (add_mem ..)

theorem build_arg {v : Nat} (h : v ∈ f.args) :
    (⟨v, 0⟩, { arg := true }) ∈ (buildGraph f).log ∧ (⟨v, 1⟩, { caller := true }) ∈ (buildGraph f).log := by
  obtain ⟨g', hg'⟩ := foldl_mem addArgument_le f.args (f.body.foldl (visit f) {}) h
  exact ⟨hg'.log _ ((add_le ..).log _ (add_mem ..)), hg'.log _ (add_mem ..)⟩

/-! ## Globals -/

/-- A value occurs in the graph. -/
def Occ (g : Graph) (v : Nat) : Prop := ∃ e ∈ g.log, e.1.val = v

/-- Globals in the graph have their marks; ends of edges are in the graph. -/
structure GInv (g : Graph) : Prop where
  glob : ∀ v, Occ g v → f.isGlobal v = true → (⟨v, 0⟩, { glob := true }) ∈ g.log ∧ (⟨v, 1⟩, { unk := true }) ∈ g.log
  edge : ∀ a b, (a, b) ∈ g.edges → Occ g a.val ∧ Occ g b.val

theorem Occ.mono {g g' : Graph} (h : GLe g g') {v : Nat} : Occ g v → Occ g' v := fun ⟨e, he, hv⟩ => ⟨e, h.log e he, hv⟩

theorem occ_of_has {g : Graph} {n : Node} (h : g.has n = true) : Occ g n.val := by
  rcases foldl_levels n.val g.log 0 with h1 | h1
  · have : n.lvl < g.levels n.val := of_decide_eq_true h
    rw [Graph.levels, h1] at this; omega
  · obtain ⟨e, he, hv⟩ := List.mem_map.1 h1; exact ⟨e, he, hv⟩

variable {f}

theorem GInv.add {g : Graph} (h : GInv f g) {n : Node} (a : Attr) (hn : Occ g n.val ∨ f.isGlobal n.val = false) :
    GInv f (g.add n a) := by
  refine ⟨fun v hv hg => ?_, fun a b hab => ?_⟩
  · obtain ⟨e, he, rfl⟩ := hv
    have : Occ g e.1.val := by
      rcases List.mem_append.1 he with he | he
      · exact ⟨e, he, rfl⟩
      · rw [List.mem_singleton] at he; subst he
        rcases hn with hn | hn
        · exact hn
        · rw [hn] at hg; cases hg
    obtain ⟨h1, h2⟩ := h.glob _ this hg
    exact ⟨(add_le ..).log _ h1, (add_le ..).log _ h2⟩
  · obtain ⟨h1, h2⟩ := h.edge a b hab
    exact ⟨h1.mono (add_le ..), h2.mono (add_le ..)⟩

theorem GInv.edge' {g : Graph} (h : GInv f g) {s t : Node} (hs : Occ g s.val) (ht : Occ g t.val) : GInv f (g.edge s t) := by
  refine ⟨h.glob, fun a b hab => ?_⟩
  rcases List.mem_append.1 hab with h1 | h1
  · exact h.edge a b h1
  · rw [List.mem_singleton] at h1; cases h1; exact ⟨hs, ht⟩

theorem addNode_occ (f : Fn) (g : Graph) (v : Nat) (a : Attr) : Occ (addNode f g v a) v := by
  unfold addNode
  split
  · split
    · exact ⟨_, add_mem .., rfl⟩
    · exact ⟨_, add_mem .., rfl⟩
  · split
    · exact ⟨_, add_mem .., rfl⟩
    · exact ⟨_, add_mem .., rfl⟩

theorem addNode_ginv {g : Graph} (h : GInv f g) (v : Nat) (a : Attr) : GInv f (addNode f g v a) := by
  unfold addNode
  split
  · rename_i hg
    split
    · rename_i hh; exact h.add _ (.inl (occ_of_has hh))
    · refine ⟨fun w hw hgw => ?_, fun a b hab => ?_⟩
      · by_cases hvw : w = v
        · subst hvw; exact ⟨(add_le ..).log _ (add_mem ..), add_mem ..⟩
        · obtain ⟨e, he, rfl⟩ := hw
          have : e ∈ g.log := by
            simp only [Graph.add, List.mem_append, List.mem_singleton] at he
            rcases he with (he | rfl) | rfl
            · exact he
            · exact absurd rfl hvw
            · exact absurd rfl hvw
          obtain ⟨h1, h2⟩ := h.glob _ ⟨e, this, rfl⟩ hgw
          have hle := (add_le g ⟨v, 0⟩ { glob := true }).trans (add_le _ ⟨v, 1⟩ { unk := true })
          exact ⟨hle.log _ h1, hle.log _ h2⟩
      · obtain ⟨h1, h2⟩ := h.edge a b hab
        have hle := (add_le g ⟨v, 0⟩ { glob := true }).trans (add_le _ ⟨v, 1⟩ { unk := true })
        exact ⟨h1.mono hle, h2.mono hle⟩
  · rename_i hg
    have : f.isGlobal v = false := by simpa using hg
    split
    · exact h.add _ (.inr this)
    · exact h.add _ (.inr this)

theorem foldl_ginv {α : Type} {k : Graph → α → Graph} : ∀ (l : List α) (g : Graph),
    (∀ g, ∀ a ∈ l, GInv f g → GInv f (k g a)) → GInv f g → GInv f (l.foldl k g)
  | [], _, _, h => h
  | a :: l, g, hk, h => by
    rw [List.foldl_cons]
    exact foldl_ginv l _ (fun g b hb => hk g b (List.mem_cons_of_mem _ hb)) (hk g a (List.mem_cons_self ..) h)

theorem addAssign_ginv {g : Graph} (h : GInv f g) (y x : Nat) : GInv f (addAssignEdge f g y x) := by
  unfold addAssignEdge
  dsimp only
  split
  · exact addNode_ginv h ..
  · exact (addNode_ginv (addNode_ginv h ..) ..).edge' ((addNode_occ ..).mono (addNode_le ..)) (addNode_occ ..)

theorem addLoad_ginv {g : Graph} (h : GInv f g) (p x : Nat) : GInv f (addLoadEdge f g p x) := by
  have h1 : Occ (addNode f (addNode f g p) x) p := (addNode_occ ..).mono (addNode_le ..)
  exact ((addNode_ginv (addNode_ginv h ..) ..).add _ (.inl h1)).edge' (h1.mono (add_le ..))
    ((addNode_occ f (addNode f g p) x {}).mono (add_le ..))

theorem addStore_ginv {g : Graph} (h : GInv f g) (v p : Nat) : GInv f (addStoreEdge f g v p) := by
  have h1 : Occ (addNode f (addNode f g v) p) v := (addNode_occ ..).mono (addNode_le ..)
  have h2 : Occ (addNode f (addNode f g v) p) p := addNode_occ ..
  exact ((addNode_ginv (addNode_ginv h ..) ..).add _ (.inl h2)).edge' (h1.mono (add_le ..)) (h2.mono (add_le ..))

theorem markArgs_ginv : ∀ (l : List Nat) (g : Graph), (∀ v ∈ l, Occ g v) → GInv f g → GInv f (l.foldl markArg g)
  | [], _, _, h => h
  | v :: l, g, ho, h => by
    rw [List.foldl_cons]
    have hv := ho v (List.mem_cons_self ..)
    refine markArgs_ginv l _ (fun w hw => (ho w (List.mem_cons_of_mem _ hw)).mono (markArg_le ..)) ?_
    exact (h.add _ (.inl hv)).add _ (.inl (hv.mono (add_le ..)))

theorem visit_ginv {g : Graph} (h : GInv f g) (i : Instr) : GInv f (visit f g i) := by
  cases i with
  | alloca x => exact addNode_ginv h ..
  | assign froms x => exact foldl_ginv _ _ (fun g y _ h => addAssign_ginv h y x) h
  | load p x => exact addLoad_ginv h ..
  | store v p => exact addStore_ginv h ..
  | ptrToInt p => exact addNode_ginv h ..
  | intToPtr x => exact addNode_ginv h ..
  | malloc x => exact addNode_ginv h ..
  | call args ret ro na =>
    simp only [visit, visitCall_eq]
    have hA : GInv f (callA f g args) := foldl_ginv _ _ (fun g v _ h => addNode_ginv h v _) h
    have oA : ∀ v ∈ args, Occ (callA f g args) v := fun v hv => by
      obtain ⟨g', hg'⟩ := foldl_mem (h := fun g v => addNode f g v) (fun g v => addNode_le f g v _) args g hv
      exact (addNode_occ f g' v {}).mono hg'
    have hB : GInv f (callB f (callA f g args) ret) := by
      cases ret
      · exact hA
      · exact addNode_ginv hA ..
    have hC : GInv f (callC (callB f (callA f g args) ret) args ro) := by
      unfold callC; split
      · exact hB
      · exact markArgs_ginv _ _ (fun v hv => (oA v hv).mono (callB_le ..)) hB
    cases ret with
    | none => exact hC
    | some x =>
      unfold callD; dsimp only; split
      · exact hC
      · exact hC.add _ (.inl ((addNode_occ f (callA f g args) x {}).mono (callC_le ..)))
  | cmpXchg p v x => exact addStore_ginv h ..
  | ret v => exact addNode_ginv h ..

theorem build_ginv (hf : Plain f) : GInv f (buildGraph f) := by
  refine foldl_ginv _ _ (fun g v hv h => ?_) (foldl_ginv _ _ (fun g i _ h => visit_ginv h i) ⟨fun v hv => ?_, fun a b h => ?_⟩)
  · exact (h.add _ (.inr (hf.args v hv))).add _ (.inr (hf.args v hv))
  · obtain ⟨_, h, _⟩ := hv; cases h
  · cases h

end Phasar.CFLAnders
