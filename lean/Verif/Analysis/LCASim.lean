import Verif.Analysis.LCAAlg
import Verif.Store.LLVMFlowProps
/-!
# Executions are covered by runs of the exploded graph (lemmas for C49)
-/
namespace Phasar.LCA
open JoinLat IDE FlowFn

theorem mem_identity {s t : Val} : t ∈ identityFlow s ↔ t = s := by
  simp [identityFlow, FSet.ofList]

theorem mem_generate {g x s t : Val} : t ∈ generateFlow g x s ↔ t = s ∨ (s = x ∧ t = g) := by
  unfold generateFlow
  split
  · rename_i h; rw [C50.mem_ofList]; simp [h]
  · rename_i h; rw [C50.mem_ofList]; simp [h]

theorem mem_generateIf {g : Val} {q : Val → Bool} {s t : Val} : t ∈ generateFlowIf g q s ↔ t = s ∨ (q s = true ∧ t = g) := by
  unfold generateFlowIf
  split
  · rename_i h; rw [C50.mem_ofList]; simp [h]
  · rename_i h; rw [C50.mem_ofList]; simp [h]

theorem describes_mono {w : Nat} {x y : V} {z : BitVec w} (h : x ⊑ y) (hx : Describes x z) : Describes y z := by
  rcases C36.le_cases h with rfl | rfl | rfl
  · exact hx.elim
  · exact hx
  · trivial

theorem describes_execute {w : Nat} (hw : w ≤ 64) {op : Op} (ho : Prog.OkOp w op) {a b u : V} {x y z : BitVec w}
    (ha : Describes a x) (hb : Describes b y) (hz : op = .other ∨ llvm op x y = some z) (he : execute op a b = some u) :
    Describes u z := by
  have hbot : ∀ {u : V}, some (LatticeDomain.bottom : V) = some u → Describes u z := by
    intro u h; cases h; trivial
  cases a with
  | top => exact ha.elim
  | bottom => exact hbot (by simpa [execute] using he)
  | val a =>
    cases b with
    | top => exact hb.elim
    | bottom => exact hbot (by simpa [execute] using he)
    | val b =>
      change foldConst op a b = some u at he
      change a.setWidth w = x at ha
      change b.setWidth w = y at hb
      cases u with
      | top => exact absurd he (C36.fold_ne_top _ _ _)
      | bottom => trivial
      | val r =>
        show r.setWidth w = z
        by_cases hot : op = .other
        · subst hot; cases he
        · have hz := hz.resolve_left hot
          rw [← ha, ← hb] at hz
          by_cases hring : op = .add ∨ op = .sub ∨ op = .mul ∨ op = .and ∨ op = .or ∨ op = .xor
          · rw [C35_chain hw op hring a b r he] at hz
            cases hz; rfl
          · have : w = 64 ∧ (op = .sdiv ∨ op = .srem) := by
              rcases ho with h | h | h | h | h | h | h | h
              · exact absurd (.inl h) hring
              · exact absurd (.inr (.inl h)) hring
              · exact absurd (.inr (.inr (.inl h))) hring
              · exact absurd (.inr (.inr (.inr (.inl h)))) hring
              · exact absurd (.inr (.inr (.inr (.inr (.inl h))))) hring
              · exact absurd (.inr (.inr (.inr (.inr (.inr h))))) hring
              · exact absurd h hot
              · exact h
            obtain ⟨rfl, h⟩ := this
            rw [BitVec.setWidth_eq, BitVec.setWidth_eq] at hz
            rw [BitVec.setWidth_eq]
            refine C35_fold_64_partial op a b z r ?_ he hz
            rcases h with rfl | rfl <;> exact fun h => h.elim

/-- The edge into an arithmetic instruction describes its result if the value of the source describes the operand. -/
theorem describes_edge {w : Nat} (hw : w ≤ 64) {op : Op} {l r d : Val} (ho : Prog.OkOp w op) (hs : Prog.SafeOp op l r) {v : V}
    {x y z : BitVec w} (hd : d.constInt? = none) (hg : generates l r d = true)
    (hl : d = l → Describes v x) (hr : d = r → Describes v y) (hlc : ∀ c, l = .const c → x = c.setWidth w)
    (hrc : ∀ c, r = .const c → y = c.setWidth w) (hz : op = .other ∨ llvm op x y = some z) :
    Describes (Prog.alg.ap (binEdge op l r d) v) z := by
  rcases C36_created op l r d hd hg with h | ⟨b, h, hb⟩
  · rw [h]; trivial
  · rw [h]
    have hbe : b = ⟨op, l, r, d⟩ := by
      unfold binEdge at h
      split at h
      · cases h
      · cases h; rfl
    subst hbe
    obtain ⟨u, hu⟩ := bin_total hb hs v
    have : Prog.alg.ap (.bin ⟨op, l, r, d⟩) v = u := by
      show ((EF.bin _).ap v).getD .bottom = u
      simp only [EF.ap, hu, Option.getD_some]
    rw [this]
    rcases bin_spec hb with ⟨a, c, _, h2, h3, h4⟩ | ⟨c, h2, h3, h4⟩ | ⟨a, h2, h3, h4⟩
    · rw [h4] at hu
      exact describes_execute hw ho (a := .val a) (b := .val c) (hlc a h2).symm (hrc c h3).symm hz hu
    · rw [h4] at hu
      split at hu
      · cases hu; trivial
      · exact describes_execute hw ho (b := .val c) (hl h2.symm) (hrc c h3).symm hz hu
    · rw [h4] at hu
      split at hu
      · cases hu; trivial
      · exact describes_execute hw ho (a := .val a) (hlc a h3).symm (hr h2.symm) hz hu

namespace Prog
variable {p : Prog} {w : Nat}

/-- A run of the exploded graph from a seed arrives here. -/
def Run (p : Prog) (stk : List Nat) (n : Nat) (d : Val) (v : V) : Prop :=
  ∃ n0 d0 v0, IsSeed p.problem n0 d0 v0 ∧ RSteps p.problem ⟨[], n0, d0, v0⟩ ⟨stk, n, d, v⟩

theorem Run.step {stk stk' : List Nat} {n n' : Nat} {d d' : Val} {v v' : V} (h : Run p stk n d v)
    (hs : RStep p.problem ⟨stk, n, d, v⟩ ⟨stk', n', d', v'⟩) : Run p stk' n' d' v' := by
  obtain ⟨n0, d0, v0, h1, h2⟩ := h
  exact ⟨n0, d0, v0, h1, .tail h2 hs⟩

theorem Run.normal {stk : List Nat} {n n' : Nat} {d d' : Val} {v : V} (h : Run p stk n d v) (hc : p.icf.isCall n = false)
    (hn : n' ∈ p.icf.succs n) (hd : d' ∈ p.normalFlow n d) : Run p stk n' d' (alg.ap (p.normalEdge n d d') v) :=
  h.step (RStep.normal (P := p.problem) hc hn hd)

theorem normalEdge_self (n : Nat) (d : Val) : p.normalEdge n d d = .id := by
  unfold normalEdge
  split
  · rfl
  · rename_i hz
    have hz : d ≠ .zero := fun h => hz ⟨h, h⟩
    split
    · rw [if_neg hz]
    · split
      · cases d with
        | zero => exact absurd rfl hz
        | _ => rfl
      · rfl
    · rw [if_neg (fun h => h.2 rfl)]
    · rfl

theorem Run.keep {stk : List Nat} {n n' : Nat} {d : Val} {v : V} (h : Run p stk n d v) (hc : p.icf.isCall n = false)
    (hn : n' ∈ p.icf.succs n) (hd : d ∈ p.normalFlow n d) : Run p stk n' d v := by
  have := h.normal hc hn hd
  rwa [normalEdge_self] at this

/-- The flow functions of the normal edges by shape. -/
theorem normalFlow_shape (n : Nat) : (∃ x, p.normalFlow n = generateFlow (.node n) x) ∨
    (∃ q, p.normalFlow n = generateFlowIf (.node n) q) ∨
    (∃ int v k b, p.inst n = .store int v k b ∧ ((∃ q, p.normalFlow n = strongUpdateStoreIf (.node k) (.node b) q) ∨
      p.normalFlow n = strongUpdateStore v (.node k) (.node b))) ∨ p.normalFlow n = identityFlow := by
  unfold normalFlow
  split
  · exact .inl ⟨_, rfl⟩
  · rename_i int v ptr base hi
    split
    · exact .inr (.inr (.inl ⟨_, _, _, _, hi, .inl ⟨_, rfl⟩⟩))
    · split
      · exact .inr (.inr (.inl ⟨_, _, _, _, hi, .inr rfl⟩))
      · exact .inr (.inr (.inr rfl))
  · exact .inl ⟨_, rfl⟩
  · exact .inr (.inl ⟨_, rfl⟩)
  · exact .inr (.inl ⟨_, rfl⟩)
  · exact .inl ⟨_, rfl⟩
  · exact .inr (.inr (.inr rfl))

/-- Except at stores, facts are kept. -/
theorem keep_flow (n : Nat) (d : Val) (h : ∀ int v k b, p.inst n = .store int v k b → d ≠ .node k ∧ d ≠ .node b) :
    d ∈ p.normalFlow n d := by
  rcases normalFlow_shape (p := p) n with ⟨x, e⟩ | ⟨q, e⟩ | ⟨int, v, k, b, hi, ⟨q, e⟩ | e⟩ | e <;> rw [e]
  · exact mem_generate.2 (.inl rfl)
  · exact mem_generateIf.2 (.inl rfl)
  · exact (C50_store ..).2 ⟨(h _ _ _ _ hi).1, (h _ _ _ _ hi).2, .inl rfl⟩
  · exact (C50_store_value ..).2 ⟨(h _ _ _ _ hi).1, (h _ _ _ _ hi).2, .inl rfl⟩
  · exact mem_identity.2 rfl

/-- The tracked cells are described by runs that arrive here; the zero fact arrives with bottom. -/
structure Covers (p : Prog) (stk : List Nat) (n : Nat) (loc glob : Nat → Cell w) : Prop where
  zero : Run p stk n .zero .bottom
  cells : ∀ k, (p.cell loc glob k).tracked = true → ∃ v, Run p stk n (.node k) v ∧ Describes v (p.cell loc glob k).v

/-- The same for the callers' local cells at the pending calls. -/
def Frames (p : Prog) : List (Nat × (Nat → Cell w)) → Prop
  | [] => True
  | (c, loc) :: rest => p.icf.isCall c = true ∧ (∃ as, p.inst c = .call as) ∧ (∃ f ∈ p.icf.callees c, p.isDecl f = false) ∧
      (∀ k, p.isGlobal k = false → (loc k).tracked = true →
        ∃ v, Run p (rest.map Prod.fst) c (.node k) v ∧ Describes v (loc k).v) ∧ Frames p rest

theorem cell_upd_loc (loc glob : Nat → Cell w) (n k : Nat) (x : Cell w) :
    p.cell (upd loc n x) glob k = if p.isGlobal k = false ∧ k = n then x else p.cell loc glob k := by
  unfold cell upd
  cases p.isGlobal k <;> simp

/-- Results of non-store instructions: all cells but the one of `n` are kept. -/
theorem covers_result {stk : List Nat} {n n' : Nat} {loc glob : Nat → Cell w} (hcov : Covers p stk n loc glob)
    (hcall : p.icf.isCall n = false) (hn : n' ∈ p.icf.succs n) (hst : ∀ int v k b, p.inst n ≠ .store int v k b) (x : Cell w)
    (hx : x.tracked = true → ∃ v, Run p stk n' (.node n) v ∧ Describes v x.v) : Covers p stk n' (upd loc n x) glob := by
  refine ⟨hcov.zero.keep hcall hn (keep_flow _ _ fun _ _ _ _ h => absurd h (hst _ _ _ _)), fun k hk => ?_⟩
  rw [cell_upd_loc] at hk ⊢
  split
  · rename_i h
    rw [if_pos h] at hk
    obtain ⟨_, rfl⟩ := h
    exact hx hk
  · rename_i h
    rw [if_neg h] at hk
    obtain ⟨v, h1, h2⟩ := hcov.cells k hk
    exact ⟨v, h1.keep hcall hn (keep_flow _ _ fun _ _ _ _ h => absurd h (hst _ _ _ _)), h2⟩

/-- A tracked result of arithmetic has a source fact with a describing run. -/
theorem arith_source (hw : w ≤ 64) (hwf : p.WF w) {stk : List Nat} {n : Nat} {loc glob : Nat → Cell w}
    (hcov : Covers p stk n loc glob) {op : Op} {l r : Val} (hi : p.IsArith n op l r) {z : BitVec w}
    (hz : op = .other ∨ llvm op (p.operand loc glob l) (p.operand loc glob r) = some z)
    (ht : ((l.constInt?.isSome && r.constInt?.isSome) || p.opTracked loc glob l || p.opTracked loc glob r) = true) :
    ∃ d v, Run p stk n d v ∧ generates l r d = true ∧ d ≠ .node n ∧ Describes (alg.ap (binEdge op l r d) v) z := by
  obtain ⟨ho, hs⟩ := hwf.ops n op l r hi
  obtain ⟨hsl, hsr⟩ := hwf.ssa n op l r hi
  have hlc : ∀ c, l = .const c → p.operand loc glob l = c.setWidth w := by rintro c rfl; rfl
  have hrc : ∀ c, r = .const c → p.operand loc glob r = c.setWidth w := by rintro c rfl; rfl
  have node : ∀ a : Val, p.opTracked loc glob a = true → ∃ k, a = .node k ∧ (p.cell loc glob k).tracked = true := by
    intro a ha
    cases a with
    | node k => exact ⟨k, rfl, ha⟩
    | _ => cases ha
  by_cases h1 : p.opTracked loc glob l = true
  · obtain ⟨k, rfl, hk⟩ := node l h1
    obtain ⟨v, hv, hd⟩ := hcov.cells k hk
    have hg : generates (.node k) r (.node k) = true := by simp [generates]
    refine ⟨.node k, v, hv, hg, hsl, describes_edge hw ho hs rfl hg (fun _ => hd) ?_ hlc hrc hz⟩
    rintro rfl; exact hd
  · by_cases h2 : p.opTracked loc glob r = true
    · obtain ⟨k, rfl, hk⟩ := node r h2
      obtain ⟨v, hv, hd⟩ := hcov.cells k hk
      have hg : generates l (.node k) (.node k) = true := by simp [generates]
      refine ⟨.node k, v, hv, hg, hsr, describes_edge hw ho hs rfl hg ?_ (fun _ => hd) hlc hrc hz⟩
      rintro rfl; exact hd
    · simp only [h1, h2, Bool.or_false, Bool.and_eq_true] at ht
      have hg : generates l r .zero = true := by simp [generates, ht.1, ht.2]
      exact ⟨.zero, .bottom, hcov.zero, hg, nofun,
        describes_edge hw ho hs rfl hg (fun _ => trivial) (fun _ => trivial) hlc hrc hz⟩

theorem covers_effect (hw : w ≤ 64) (hwf : p.WF w) {stk : List Nat} {n n' : Nat} {loc glob loc' glob' : Nat → Cell w}
    (hcov : Covers p stk n loc glob) (hcall : p.icf.isCall n = false) (hn : n' ∈ p.icf.succs n)
    (he : p.Effect n loc glob loc' glob') : Covers p stk n' loc' glob' := by
  have ns : ∀ {i : Inst}, p.inst n = i → (∀ int v k b, i ≠ .store int v k b) → ∀ int v k b, p.inst n ≠ .store int v k b := by
    intro i hi h; rw [hi]; exact h
  cases he with
  | alloca v hi =>
    refine covers_result hcov hcall hn (ns hi fun _ _ _ _ h => by cases h) _ fun _ => ⟨.bottom, ?_, trivial⟩
    have := hcov.zero.normal hcall hn (d' := .node n) (by unfold normalFlow; rw [hi]; exact mem_generate.2 (.inr ⟨rfl, rfl⟩))
    have he : p.normalEdge n .zero (.node n) = .allBottom := by simp [normalEdge, hi]
    rwa [he] at this
  | store v k hi =>
    have hself := hwf.store _ _ _ _ _ hi
    have hz : Run p stk n' .zero .bottom :=
      hcov.zero.keep hcall hn (keep_flow _ _ fun _ _ _ _ h => ⟨nofun, nofun⟩)
    have hkeep : ∀ j, j ≠ k → ∀ v, Run p stk n (.node j) v → Run p stk n' (.node j) v := by
      intro j hj v hr
      refine hr.keep hcall hn (keep_flow _ _ fun _ _ _ _ h => ?_)
      rw [hi] at h; cases h
      exact ⟨fun h => hj (by cases h; rfl), fun h => hj (by cases h; rfl)⟩
    have hcell : ∀ j, p.cell (p.write loc glob k (p.opCell loc glob v)).1 (p.write loc glob k (p.opCell loc glob v)).2 j =
        if j = k then p.opCell loc glob v else p.cell loc glob j := by
      intro j
      unfold write cell upd
      by_cases hjk : j = k
      · subst hjk; cases hg : p.isGlobal j <;> simp
      · cases p.isGlobal k <;> simp [hjk]
    refine ⟨hz, fun j hj => ?_⟩
    rw [hcell] at hj ⊢
    split
    · rename_i hjk
      rw [if_pos hjk] at hj
      subst hjk
      simp only [opCell, Bool.or_eq_true] at hj ⊢
      cases v with
      | zero => simp [Val.constInt?, opTracked] at hj
      | const c =>
        refine ⟨.val c, ?_, rfl⟩
        have := hcov.zero.normal hcall hn (d' := .node j) (by
          unfold normalFlow; rw [hi]
          simp only [Val.constInt?, Option.isSome_some, if_true]
          exact (C50_store (Val.node j) (Val.node j) (fun s => decide (s = Val.zero)) Val.zero (Val.node j)).2
            ⟨nofun, nofun, .inr ⟨decide_eq_true rfl, .inl rfl⟩⟩)
        have he : p.normalEdge n .zero (.node j) = .const true c := by simp [normalEdge, hi]
        rwa [he] at this
      | node i =>
        simp only [Val.constInt?, opTracked, Option.isSome_none, Bool.false_eq_true, false_or] at hj
        obtain ⟨x, hx, hd⟩ := hcov.cells i hj
        refine ⟨x, ?_, hd⟩
        have := hx.normal hcall hn (d' := .node j) (by
          unfold normalFlow; rw [hi]
          simp only [Val.constInt?, Option.isSome_none, Bool.false_eq_true, if_true]
          exact (C50_store_value ..).2 ⟨hself, hself, .inr ⟨rfl, .inl rfl⟩⟩)
        have he : p.normalEdge n (.node i) (.node j) = .id := by simp [normalEdge, hi]
        rwa [he] at this
    · rename_i hjk
      rw [if_neg hjk] at hj
      obtain ⟨x, hx, hd⟩ := hcov.cells j hj
      exact ⟨x, hkeep j hjk x hx, hd⟩
  | load k hi =>
    refine covers_result hcov hcall hn (ns hi fun _ _ _ _ h => by cases h) _ fun ht => ?_
    obtain ⟨x, hx, hd⟩ := hcov.cells k ht
    refine ⟨x, ?_, hd⟩
    have := hx.normal hcall hn (d' := .node n) (by
      unfold normalFlow; rw [hi]; exact mem_generateIf.2 (.inr ⟨by simp, rfl⟩))
    have he : p.normalEdge n (.node k) (.node n) = .id := by simp [normalEdge, hi]
    rwa [he] at this
  | extract k hi =>
    refine covers_result hcov hcall hn (ns hi fun _ _ _ _ h => by cases h) _ fun ht => ?_
    obtain ⟨x, hx, hd⟩ := hcov.cells k ht
    refine ⟨x, ?_, hd⟩
    have := hx.normal hcall hn (d' := .node n) (by
      unfold normalFlow; rw [hi]; exact mem_generate.2 (.inr ⟨rfl, rfl⟩))
    have he : p.normalEdge n (.node k) (.node n) = .id := by simp [normalEdge, hi]
    rwa [he] at this
  | bin op l r z hi hz =>
    refine covers_result hcov hcall hn (ns hi fun _ _ _ _ h => by cases h) _ fun ht => ?_
    obtain ⟨d, v, hv, hg, hne, hd⟩ := arith_source hw hwf hcov (.inl hi) hz ht
    refine ⟨_, ?_, hd⟩
    have := hv.normal hcall hn (d' := .node n) (by
      unfold normalFlow; rw [hi]; exact mem_generateIf.2 (.inr ⟨hg, rfl⟩))
    have he : p.normalEdge n d (.node n) = binEdge op l r d := by
      simp [normalEdge, hi, hne]
    rwa [he] at this
  | other v hi =>
    refine covers_result hcov hcall hn ?_ _ nofun
    intro int v k b h
    rw [h] at hi
    rcases hi with h | h | ⟨_, h⟩ | ⟨_, h⟩ | ⟨_, h⟩ <;> cases h
  | storeOther v k b hi hv =>
    have hk : ∀ d, d ∈ p.normalFlow n d := by
      intro d; unfold normalFlow; rw [hi]; simp only [hv, Option.isSome_none, Bool.false_eq_true, if_false]; exact mem_identity.2 rfl
    refine ⟨hcov.zero.keep hcall hn (hk _), fun j hj => ?_⟩
    obtain ⟨x, hx, hd⟩ := hcov.cells j hj
    exact ⟨x, hx.keep hcall hn (hk _), hd⟩

theorem findIdx_nodup {l : List Nat} (hn : l.Nodup) {i k : Nat} (h : l[i]? = some k) :
    (l.map Val.node).findIdx? (fun x => decide (x = .node k)) = some i := by
  induction l generalizing i with
  | nil => simp at h
  | cons a l ih =>
    obtain ⟨h1, h2⟩ := List.nodup_cons.1 hn
    cases i with
    | zero => simp at h; subst h; simp [List.findIdx?_cons]
    | succ i =>
      rw [List.getElem?_cons_succ] at h
      have hak : a ≠ k := by rintro rfl; exact h1 (List.mem_of_getElem? h)
      rw [List.map_cons, List.findIdx?_cons]
      simp [hak, ih h2 h]

/-- The invariant: the current cells and the cells of the callers are covered. -/
def Inv (p : Prog) (s : CState w) : Prop := Covers p (s.stk.map Prod.fst) s.n s.loc s.glob ∧ Frames p s.stk

theorem inv_init {s : CState w} (h : p.Init s) : Inv p s := by
  obtain ⟨h1, h2, h3, h4⟩ := h
  have hseed : (s.n, (Val.zero, LatticeDomain.bottom) :: p.globals.map fun g => (Val.node g.1, LatticeDomain.val g.2)) ∈
      p.problem.seeds := List.mem_map.2 ⟨s.n, h2, rfl⟩
  refine ⟨⟨?_, fun k hk => ?_⟩, by rw [h1]; trivial⟩
  · rw [h1]; exact ⟨_, _, _, ⟨_, hseed, .inl List.mem_cons_self⟩, .refl _⟩
  · unfold cell at hk ⊢
    split
    · rename_i hg
      rw [if_pos hg] at hk
      obtain ⟨c, hc, hv⟩ := h4 k hk
      rw [h1]
      exact ⟨.val c, ⟨_, _, _, ⟨_, hseed, .inl (List.mem_cons_of_mem _ (List.mem_map.2 ⟨_, hc, rfl⟩))⟩, .refl _⟩, hv.symm⟩
    · rename_i hg
      rw [if_neg hg, h3] at hk; cases hk

theorem inv_step (hw : w ≤ 64) (hwf : p.WF w) {s t : CState w} (h : Inv p s) (hs : p.CStep s t) : Inv p t := by
  obtain ⟨hcov, hfr⟩ := h
  cases hs with
  | normal hc hn he => exact ⟨covers_effect hw hwf hcov hc hn he, hfr⟩
  | @call stk n loc glob as f sp loc' hc hi hf hd hsp hpar hoth =>
    have hsum : p.problem.summaryFlow n f = none := by show p.summaryFlow n = none; unfold summaryFlow; rw [hi]
    have hstep : ∀ {d d' v}, Run p (stk.map Prod.fst) n d v → d' ∈ p.callFlow n f d →
        Run p (n :: stk.map Prod.fst) sp d' (alg.ap (p.callEdge n d f d') v) := fun hr hd' =>
      hr.step (RStep.call (P := p.problem) hc hf hsum hsp hd')
    have hcf : ∀ d, p.callFlow n f d = mapFactsToCallee p.ir (p.args n) (p.callee f)
        (fun arg s => decide (arg = s) || (decide (s = .zero) && arg.constInt?.isSome)) true true d := by
      intro d; unfold callFlow; rw [if_neg (by simp [hd])]
    have hargs : p.args n = as := by unfold args; rw [hi]
    obtain ⟨hnd, hsret, hloc⟩ := hwf.params f
    refine ⟨⟨?_, fun k hk => ?_⟩, hc, ⟨as, hi⟩, ⟨f, hf, hd⟩, fun k hg hk => ?_, hfr⟩
    · have := hstep hcov.zero (d' := .zero) (by
        rw [hcf]; exact (C50_callee ..).2 ⟨hd, .inl ⟨rfl, .inl ⟨rfl, rfl⟩⟩⟩)
      have he : p.callEdge n .zero f .zero = .id := by simp [callEdge]
      rwa [he] at this
    · dsimp only at hk ⊢
      unfold cell at hk ⊢
      split
      · rename_i hg
        rw [if_pos hg] at hk
        have hk' : (p.cell loc glob k).tracked = true := by unfold cell; rw [if_pos hg]; exact hk
        obtain ⟨x, hx, hdx⟩ := hcov.cells k hk'
        refine ⟨x, ?_, by unfold cell at hdx; rw [if_pos hg] at hdx; exact hdx⟩
        have := hstep hx (d' := .node k) (by
          rw [hcf]; exact (C50_callee ..).2 ⟨hd, .inl ⟨rfl, .inr ⟨nofun, hg, rfl⟩⟩⟩)
        have he : p.callEdge n (.node k) f (.node k) = .id := by simp [callEdge]
        rwa [he] at this
      · rename_i hg
        rw [if_neg hg] at hk
        by_cases hm : k ∈ p.params f
        · obtain ⟨i, hik⟩ := List.mem_iff_getElem?.1 hm
          have hlen := hwf.arity n as hi f hf hd
          have hlt : i < (p.params f).length := (List.getElem?_eq_some_iff.1 hik).1
          have hai : as[i]? = some as[i] := List.getElem?_eq_getElem (by omega)
          generalize as[i] = a at hai
          have hpk := hpar i k a hik hai
          rw [hpk] at hk ⊢
          have hpm : (p.callee f).params[i]? = some (.node k) := by simp [callee, hik]
          have hmem : ∀ s, (decide (a = s) || (decide (s = .zero) && a.constInt?.isSome)) = true → .node k ∈ p.callFlow n f s := by
            intro s hs
            rw [hcf]
            refine (C50_callee ..).2 ⟨hd, .inr (.inl ⟨i, a, hpm, by rw [hargs]; exact hai, hs, fun h => ?_⟩)⟩
            have : p.sret f = true := h.1
            rw [hsret] at this; cases this
          cases a with
          | zero => simp [opCell, Val.constInt?, opTracked] at hk
          | const c =>
            refine ⟨.val c, ?_, rfl⟩
            have := hstep hcov.zero (hmem .zero (by simp [Val.constInt?]))
            have he : p.callEdge n .zero f (.node k) = .const true c := by
              have h1 := findIdx_nodup hnd hik
              simp [callEdge, callee, h1, hargs, hai]
            rwa [he] at this
          | node j =>
            simp only [opCell, Val.constInt?, opTracked, Option.isSome_none, Bool.false_or] at hk
            obtain ⟨x, hx, hdx⟩ := hcov.cells j hk
            refine ⟨x, ?_, hdx⟩
            have := hstep hx (hmem (.node j) (by simp))
            have he : p.callEdge n (.node j) f (.node k) = .id := by simp [callEdge]
            rwa [he] at this
        · rw [hoth k hm] at hk; cases hk
    · have hk' : (p.cell loc glob k).tracked = true := by unfold cell; rw [if_neg (by simp [hg])]; exact hk
      obtain ⟨x, hx, hdx⟩ := hcov.cells k hk'
      exact ⟨x, hx, by unfold cell at hdx; rw [if_neg (by simp [hg])] at hdx; exact hdx⟩
  | @ret stk c locc n loc glob r v x hc hex hi hr hv hnv =>
    obtain ⟨hcc, ⟨as, hci⟩, ⟨f, hf, hd⟩, hloc, hrest⟩ := hfr
    have hstep : ∀ {d d' v}, Run p (c :: stk.map Prod.fst) n d v → d' ∈ p.retFlow c (p.icf.funOf n) n d →
        Run p (stk.map Prod.fst) r d' (alg.ap (p.retEdge n d d') v) := fun hrn hd' =>
      hrn.step (RStep.ret (P := p.problem) hc hex hr hd')
    refine ⟨⟨?_, fun k hk => ?_⟩, hrest⟩
    · have := hstep hcov.zero (d' := .zero) ((C50_caller_partial ..).2 (.inl ⟨rfl, .inl ⟨rfl, rfl⟩⟩))
      have he : p.retEdge n .zero .zero = .id := by simp [retEdge]
      rwa [he] at this
    · by_cases hg : p.isGlobal k = true
      · unfold cell at hk ⊢
        rw [if_pos hg] at hk ⊢
        have hk' : (p.cell loc glob k).tracked = true := by unfold cell; rw [if_pos hg]; exact hk
        obtain ⟨y, hy, hdy⟩ := hcov.cells k hk'
        refine ⟨y, ?_, by unfold cell at hdy; rw [if_pos hg] at hdy; exact hdy⟩
        have := hstep hy (d' := .node k) ((C50_caller_partial ..).2 (.inl ⟨rfl, .inr ⟨hg, rfl⟩⟩))
        have he : p.retEdge n (.node k) (.node k) = .id := by simp [retEdge]
        rwa [he] at this
      · have hg' : p.isGlobal k = false := by simpa using hg
        rw [cell_upd_loc] at hk ⊢
        by_cases hkc : k = c
        · subst hkc
          rw [if_pos ⟨hg', rfl⟩] at hk ⊢
          cases v with
          | none => rw [hnv rfl] at hk; cases hk
          | some a =>
            have hxa := hv a rfl
            rw [hxa] at hk ⊢
            have hrv : p.retVal n = some a := by unfold retVal; rw [hi]
            have hmem : ∀ s, (decide (a = s) || (decide (s = .zero) && a.constInt?.isSome)) = true →
                .node k ∈ p.retFlow k (p.icf.funOf n) n s := fun s hs =>
              (C50_caller_partial ..).2 (.inr (.inr (.inr ⟨a, hrv, hs, rfl⟩)))
            cases a with
            | zero => simp [opCell, Val.constInt?, opTracked] at hk
            | const e =>
              refine ⟨.val e, ?_, rfl⟩
              have := hstep hcov.zero (hmem .zero (by simp [Val.constInt?]))
              have he : p.retEdge n .zero (.node k) = .const true e := by simp [retEdge, hrv]
              rwa [he] at this
            | node j =>
              simp only [opCell, Val.constInt?, opTracked, Option.isSome_none, Bool.false_or] at hk
              obtain ⟨y, hy, hdy⟩ := hcov.cells j hk
              refine ⟨y, ?_, hdy⟩
              have := hstep hy (hmem (.node j) (by simp))
              have he : p.retEdge n (.node j) (.node k) = .id := by simp [retEdge]
              rwa [he] at this
        · rw [if_neg (fun h => hkc h.2)] at hk ⊢
          unfold cell at hk ⊢
          rw [if_neg hg] at hk ⊢
          obtain ⟨y, hy, hdy⟩ := hloc k hg' hk
          refine ⟨y, ?_, hdy⟩
          have hctr : .node k ∈ p.ctrFlow c (.node k) := by
            unfold ctrFlow
            rw [if_neg (fun h => by rw [List.all_eq_true] at h; rw [h f hf] at hd; cases hd)]
            refine (C50_alongside ..).2 ⟨rfl, .inr (.inr ⟨hg', fun hm => ?_⟩)⟩
            have : p.args c = as := by unfold args; rw [hci]
            rw [this] at hm
            rw [hwf.args c as hci _ hm]; rfl
          exact hy.step (RStep.callToRet (P := p.problem) hcc hr hctr)
  | @extern stk n loc glob as r v hc hi hall hr =>
    have hctr : ∀ d, d ∈ p.ctrFlow n d := by
      intro d; unfold ctrFlow; rw [if_pos (List.all_eq_true.2 hall)]; exact mem_identity.2 rfl
    have hkeep : ∀ {d v}, Run p (stk.map Prod.fst) n d v → Run p (stk.map Prod.fst) r d v := fun hrn =>
      hrn.step (RStep.callToRet (P := p.problem) hc hr (hctr _))
    refine ⟨⟨hkeep hcov.zero, fun k hk => ?_⟩, hfr⟩
    rw [cell_upd_loc] at hk ⊢
    split
    · rename_i h; rw [if_pos h] at hk; cases hk
    · rename_i h; rw [if_neg h] at hk
      obtain ⟨y, hy, hdy⟩ := hcov.cells k hk
      exact ⟨y, hkeep hy, hdy⟩
  | @intrinsic stk n loc glob op l rr g r z hc hi hg hall hr hz =>
    have hctr : ∀ d, d ∈ p.ctrFlow n d := by
      intro d; unfold ctrFlow; rw [if_pos (List.all_eq_true.2 hall)]; exact mem_identity.2 rfl
    have hkeep : ∀ {d v}, Run p (stk.map Prod.fst) n d v → Run p (stk.map Prod.fst) r d v := fun hrn =>
      hrn.step (RStep.callToRet (P := p.problem) hc hr (hctr _))
    refine ⟨⟨hkeep hcov.zero, fun k hk => ?_⟩, hfr⟩
    rw [cell_upd_loc] at hk ⊢
    split
    · rename_i h; rw [if_pos h] at hk
      obtain ⟨_, rfl⟩ := h
      obtain ⟨d, v, hv, hgen, hne, hdd⟩ := arith_source hw hwf hcov (.inr ⟨_, hi⟩) hz hk
      refine ⟨_, ?_, hdd⟩
      have hsum : p.problem.summaryFlow k g = some (generateFlowIf (.node k) (fun s => generates l rr s)) := by
        show p.summaryFlow k = _; unfold summaryFlow; rw [hi]
      have := hv.step (RStep.summary (P := p.problem) hc hg hsum hr (mem_generateIf.2 (.inr ⟨hgen, rfl⟩)))
      have he : p.sumEdge k d (.node k) = binEdge op l rr d := by
        unfold sumEdge binEdge
        rw [hi]
        simp only [hne, ne_eq, not_false_eq_true, and_self, if_true]
      change Run p _ _ _ (alg.ap (p.sumEdge k d (.node k)) v) at this
      rwa [he] at this
    · rename_i h; rw [if_neg h] at hk
      obtain ⟨y, hy, hdy⟩ := hcov.cells k hk
      exact ⟨y, hkeep hy, hdy⟩

theorem inv_steps (hw : w ≤ 64) (hwf : p.WF w) {s t : CState w} (hi : p.Init s) (h : p.CSteps s t) : Inv p t := by
  induction h with
  | refl => exact inv_init hi
  | tail _ h ih => exact inv_step hw hwf ih h

/-! ### The requirements of the solver -/

/-- `ConstantInt`s are never facts. -/
theorem facts_closed (hwf : p.WF w) : p.problem.FactsClosed (fun d => d.constInt? = none) where
  zero := rfl
  seed n facts d v h hd := by
    obtain ⟨sp, _, h⟩ := List.mem_map.1 h
    cases h
    rcases List.mem_cons.1 hd with hd | hd
    · cases hd; rfl
    · obtain ⟨g, _, hd⟩ := List.mem_map.1 hd
      cases hd; rfl
  normal n d n' d' hd h := by
    change d' ∈ p.normalFlow n d at h
    rcases normalFlow_shape (p := p) n with ⟨x, e⟩ | ⟨q, e⟩ | ⟨int, v, k, b, hi, ⟨q, e⟩ | e⟩ | e <;> rw [e] at h
    · rcases mem_generate.1 h with rfl | ⟨_, rfl⟩
      · exact hd
      · rfl
    · rcases mem_generateIf.1 h with rfl | ⟨_, rfl⟩
      · exact hd
      · rfl
    · rcases ((C50_store ..).1 h).2.2 with rfl | ⟨_, rfl | rfl⟩
      · exact hd
      · rfl
      · rfl
    · rcases ((C50_store_value ..).1 h).2.2 with rfl | ⟨_, rfl | rfl⟩
      · exact hd
      · rfl
      · rfl
    · rw [mem_identity.1 h]; exact hd
  call n d g d' hd h := by
    change d' ∈ p.callFlow n g d at h
    unfold callFlow at h
    split at h
    · rw [mem_identity.1 h]; exact hd
    · obtain ⟨_, ⟨rfl, _⟩ | ⟨i, a, h1, _⟩ | ⟨h1, _⟩⟩ := (C50_callee ..).1 h
      · exact hd
      · simp only [callee, List.getElem?_map, Option.map_eq_some_iff] at h1
        obtain ⟨k, _, rfl⟩ := h1; rfl
      · exact absurd h1 List.not_mem_nil
  ret c g e d r d' hd h := by
    change d' ∈ p.retFlow c g e d at h
    obtain ⟨rfl, _⟩ | ⟨i, q, h1, _, h3⟩ | ⟨⟨a, h1, _⟩, _⟩ | ⟨_, _, _, rfl⟩ := (C50_caller_partial ..).1 h
    · exact hd
    · simp only [callee, List.getElem?_map, Option.map_eq_some_iff] at h1
      obtain ⟨k, hk, rfl⟩ := h1
      have := ((hwf.params g).2.2 k (List.mem_of_getElem? hk)).2
      simp [ptrTy, this] at h3
    · exact absurd h1 List.not_mem_nil
    · rfl
  ctr n d r d' hd h := by
    change d' ∈ p.ctrFlow n d at h
    unfold ctrFlow at h
    split at h
    · rw [mem_identity.1 h]; exact hd
    · rw [((C50_alongside ..).1 h).1]; exact hd
  sum n d g s d' hd hs h := by
    change p.summaryFlow n = some s at hs
    unfold summaryFlow at hs
    split at hs
    · cases hs
      rcases mem_generateIf.1 h with rfl | ⟨_, rfl⟩
      · exact hd
      · rfl
    · cases hs

theorem ok_const (gen : Bool) (c : BitVec 64) : (EF.const gen c).Ok := ⟨trivial, trivial, nofun⟩
theorem ok_bottom : EF.allBottom.Ok := ⟨trivial, trivial, nofun⟩
theorem ok_id : EF.id.Ok := ⟨trivial, trivial, nofun⟩

theorem ok_binEdge {op : Op} {l r d : Val} (hs : SafeOp op l r) (hd : d.constInt? = none) (hg : generates l r d = true) :
    (binEdge op l r d).Ok := by
  rcases C36_created op l r d hd hg with h | ⟨b, h, hb⟩
  · rw [h]; exact ok_bottom
  · rw [h]
    refine ⟨hb, ?_, nofun⟩
    unfold binEdge at h
    split at h
    · cases h
    · cases h; exact hs

theorem ok_edges (hwf : p.WF w) : p.problem.OkEdgesOn (fun d => d.constInt? = none) EF.Ok where
  normal n d n' d' hd _ h := by
    change d' ∈ p.normalFlow n d at h
    show (p.normalEdge n d d').Ok
    unfold normalEdge
    split
    · exact ok_id
    · split
      · split
        · exact ok_bottom
        · exact ok_id
      · split
        · split
          · exact ok_const _ _
          · exact ok_id
        · exact ok_id
      · rename_i op l r hi
        split
        · rename_i hc
          unfold normalFlow at h
          rw [hi] at h
          rcases mem_generateIf.1 h with h | ⟨hg, _⟩
          · exact absurd h.symm hc.2
          · exact ok_binEdge (hwf.ops n op l r (.inl hi)).2 hd hg
        · exact ok_id
      · exact ok_id
  call n d g d' _ _ _ := by
    show (p.callEdge n d g d').Ok
    unfold callEdge
    split
    · split
      · split
        · exact ok_const _ _
        · exact ok_id
      · exact ok_id
    · exact ok_id
  ret c g e d r d' _ _ _ := by
    show (p.retEdge e d d').Ok
    unfold retEdge
    split
    · split
      · exact ok_const _ _
      · exact ok_id
    · exact ok_id
  ctr n d r d' _ _ _ := ok_id
  sum n d g s r d' hd hs _ h := by
    change p.summaryFlow n = some s at hs
    show (p.sumEdge n d d').Ok
    unfold sumEdge
    split
    · rename_i sat op l r hi
      unfold summaryFlow at hs
      rw [hi] at hs
      cases hs
      split
      · exact ok_bottom
      · rename_i hb
        split
        · rename_i hc
          rcases mem_generateIf.1 h with h | ⟨hg, _⟩
          · exact absurd h.symm hc.2
          · have := ok_binEdge (hwf.ops n op l r (.inr ⟨sat, hi⟩)).2 hd hg
            unfold binEdge at this
            rwa [if_neg hb] at this
        · exact ok_id
    · exact ok_id

theorem no_top : p.problem.NoTop EF.Ok where
  seed n d v h := by
    obtain ⟨facts, hf, h | ⟨_, rfl, _⟩⟩ := h
    · obtain ⟨sp, _, hf⟩ := List.mem_map.1 hf
      cases hf
      rcases List.mem_cons.1 h with h | h
      · cases h; exact nofun
      · obtain ⟨g, _, h⟩ := List.mem_map.1 h
        cases h; exact nofun
    · exact nofun
  ap f hf x hx h := by
    have := alg_ap hf x
    change alg.ap f x = .top at h
    rw [h] at this
    exact ap_ne_top hf.1 hf.2.2 x hx this

theorem seeds_at_start (hwf : p.WF w) : SeedsAtStart p.problem := by
  intro n facts h
  obtain ⟨sp, hsp, h⟩ := List.mem_map.1 h
  cases h
  exact hwf.entries _ hsp

end Prog
end Phasar.LCA
