import Verif.Path.Constr

/-!
# The cache does not matter: helper lemmas
-/

namespace Phasar.PathConstr

open Phasar

theorem Out.bind_ok {A B : Type} {x : Out A} {f : A → Out B} {b : B} : x.bind f = .ok b ↔ ∃ a, x = .ok a ∧ f a = .ok b := by
  cases x <;> simp [Out.bind]

theorem varName_eq (d n : Option String) : varName d n = srcName d n := by
  cases d <;> cases n <;> rfl

theorem track_base {P : Prog} : ∀ {k : Nat} {ws : List Nat} {b : Nat}, track P k ws = .ok b → ∃ v ∈ ws, BaseOf P v b := by
  intro k
  induction k with
  | zero => intro ws b h; simp [track] at h
  | succ k ih =>
    intro ws b h
    cases ws with
    | nil => simp [track] at h
    | cons v ws =>
      simp only [track] at h
      split at h
      · rename_i hk
        cases h
        exact ⟨_, List.mem_cons_self, .alloca hk⟩
      · rename_i hk
        cases h
        exact ⟨_, List.mem_cons_self, .gep hk⟩
      · rename_i h1 h2
        obtain ⟨u, hu, hb⟩ := ih h
        rcases List.mem_append.mp hu with hu | hu
        · exact ⟨v, List.mem_cons_self, .opnd h1 h2 (List.mem_reverse.mp hu) hb⟩
        · exact ⟨u, List.mem_cons_of_mem _ hu, hb⟩

/-- The constant of an alloca. -/
def pAlloca (P : Prog) (a : Nat) (e : CAV) : Prop :=
  match P.kind a with
  | .alloca dbg name ty => ∃ x, constOf (varName dbg name) ty = .ok x ∧ e = (x, [a])
  | _ => False

/-- The constant of a GEP. -/
def pGEP (P : Prog) (g : Nat) (e : CAV) : Prop :=
  match P.kind g with
  | .gep name id ty _ => ty ≠ .fp ∧ e = (.const (match ty with | .int w => if w = 1 then .bool else .int | _ => .bv) (gepName name id), [g])
  | _ => False

/-- The constant of an alloca or GEP. -/
def pBase (P : Prog) (v : Nat) (e : CAV) : Prop :=
  match P.kind v with
  | .alloca .. => pAlloca P v e
  | .gep .. => pGEP P v e
  | _ => False

/-- The translation of a load. -/
def pLoad (P : Prog) (k v p : Nat) (e : CAV) : Prop :=
  match P.kind p with
  | .alloca .. => pAlloca P p e
  | .gep .. => pGEP P p e
  | _ => ∃ b, track P k [v] = .ok b ∧ pBase P b e

/-- The translation of an operand behind a cast. -/
def pOperand' (P : Prog) (k : Nat) (R : Nat → CAV → Prop) (gepOk : Bool) (v : Nat) (e : CAV) : Prop :=
  match P.kind v with
  | .constInt x => intLit x = .ok e
  | .null => e = (.bvV 0, [])
  | .load p =>
    match P.kind p with
    | .alloca .. => pAlloca P p e
    | _ => pLoad P k v p e
  | .bin .. => R v e
  | .call f _ => getCall f = .ok e
  | .gep .. => gepOk = true ∧ pGEP P v e
  | _ => False

/-- The translation of an operand. -/
def pOperand (P : Prog) (k : Nat) (R : Nat → CAV → Prop) (gepOk : Bool) (v : Nat) (e : CAV) : Prop :=
  match P.kind v with
  | .cast _ _ u => pOperand' P k R gepOk u e
  | _ => pOperand' P k R gepOk v e

/-- The translation of a binary operator. -/
def pBin (P : Prog) : Nat → Nat → CAV → Prop
  | 0, _, _ => False
  | k + 1, v, e =>
    match P.kind v with
    | .bin o l r => ∃ a b x, pOperand P k (pBin P k) false l a ∧ pOperand P k (pBin P k) false r b ∧ binE o a.1 b.1 = .ok x ∧
        e = (x, a.2 ++ b.2)
    | _ => False

/-- The translation of a comparison. -/
def pCmp (P : Prog) (k v : Nat) (e : CAV) : Prop :=
  match P.kind v with
  | .cmp p l r => ∃ a b x, pOperand P k (pBin P k) true l a ∧ pOperand P k (pBin P k) true r b ∧ cmpE p a.1 b.1 = .ok x ∧
      e = (x, a.2 ++ b.2)
  | _ => False

/-- The translation of an incoming value of a phi. -/
def pPhiIn (P : Prog) (k : Nat) (ty : E) (i : Nat) (e : CAV) : Prop :=
  match P.kind i with
  | .constInt x => e = if x.bits = 1 then (.boolV true, []) else if x.bits = 0 then (.boolV false, []) else (ty, [])
  | .load p => pLoad P k i p e
  | .call f _ => getCall f = .ok e
  | .cmp .. => pCmp P k i e
  | _ => False

/-- The translation of the incoming values of a phi. -/
def pPhiLoop (P : Prog) (k : Nat) (ty : E) : List Nat → CAV → CAV → Prop
  | [], s, e => e = s
  | i :: is, s, e => ∃ r x, pPhiIn P k ty i r ∧ mkOr s.1 r.1 = .ok x ∧ pPhiLoop P k ty is (x, s.2 ++ r.2) e

/-- The translation of a phi. -/
def pPhi (P : Prog) (k v : Nat) (e : CAV) : Prop :=
  match P.kind v with
  | .phi ty ins => ∃ t, constOf "PHI" ty = .ok t ∧ pPhiLoop P k t ins (.boolV true, []) e
  | _ => False

/-- What may be in the cache. -/
def pVal (P : Prog) (v : Nat) (e : CAV) : Prop :=
  match P.kind v with
  | .alloca .. => pAlloca P v e
  | .gep .. => pGEP P v e
  | .bin .. => ∃ k, pBin P k v e
  | .phi .. => ∃ k, pPhi P k v e
  | _ => False

def CacheOk (P : Prog) (c : Cache) : Prop := ∀ v e, c v = some e → pVal P v e

variable {P : Prog}

/-! ## More steps -/

theorem track_mono : ∀ {k k' : Nat} {ws : List Nat} {b : Nat}, k ≤ k' → track P k ws = .ok b → track P k' ws = .ok b := by
  intro k
  induction k with
  | zero => intro k' ws b _ h; simp [track] at h
  | succ k ih =>
    intro k' ws b hk h
    cases k' with
    | zero => omega
    | succ k' =>
      cases ws with
      | nil => simp [track] at h
      | cons v ws =>
        simp only [track] at h ⊢
        split at h <;> simp_all

theorem pLoad_mono {k k' v p : Nat} {e : CAV} (hk : k ≤ k') (h : pLoad P k v p e) : pLoad P k' v p e := by
  unfold pLoad at *
  split at h <;> simp_all
  obtain ⟨b, h1, h2⟩ := h
  exact ⟨b, track_mono hk h1, h2⟩

theorem pOperand'_mono {k k' : Nat} {R R' : Nat → CAV → Prop} {g : Bool} {v : Nat} {e : CAV} (hk : k ≤ k') (hR : ∀ v e, R v e → R' v e)
    (h : pOperand' P k R g v e) : pOperand' P k' R' g v e := by
  unfold pOperand' at *
  split at h <;> try simp_all
  split at h <;> try simp_all
  exact pLoad_mono hk h

theorem pOperand_mono {k k' : Nat} {R R' : Nat → CAV → Prop} {g : Bool} {v : Nat} {e : CAV} (hk : k ≤ k') (hR : ∀ v e, R v e → R' v e)
    (h : pOperand P k R g v e) : pOperand P k' R' g v e := by
  unfold pOperand at *
  split at h
  · exact pOperand'_mono hk hR h
  · exact pOperand'_mono hk hR h

theorem pBin_mono : ∀ {k k' v : Nat} {e : CAV}, k ≤ k' → pBin P k v e → pBin P k' v e := by
  intro k
  induction k with
  | zero => intro k' v e _ h; exact h.elim
  | succ k ih =>
    intro k' v e hk h
    cases k' with
    | zero => omega
    | succ k' =>
      have hk : k ≤ k' := by omega
      unfold pBin at h ⊢
      split at h
      · obtain ⟨a, b, x, h1, h2, h3, h4⟩ := h
        exact ⟨a, b, x, pOperand_mono hk (fun v e => ih hk) h1, pOperand_mono hk (fun v e => ih hk) h2, h3, h4⟩
      · exact h.elim

theorem pCmp_mono {k k' v : Nat} {e : CAV} (hk : k ≤ k') (h : pCmp P k v e) : pCmp P k' v e := by
  unfold pCmp at *
  split at h
  · obtain ⟨a, b, x, h1, h2, h3, h4⟩ := h
    exact ⟨a, b, x, pOperand_mono hk (fun v e => pBin_mono hk) h1, pOperand_mono hk (fun v e => pBin_mono hk) h2, h3, h4⟩
  · exact h.elim

theorem pPhiIn_mono {k k' i : Nat} {ty : E} {e : CAV} (hk : k ≤ k') (h : pPhiIn P k ty i e) : pPhiIn P k' ty i e := by
  unfold pPhiIn at *
  split at h <;> try simp_all
  · exact pLoad_mono hk h
  · exact pCmp_mono hk h

theorem pPhiLoop_mono {k k' : Nat} {ty : E} (hk : k ≤ k') : ∀ {is : List Nat} {s e : CAV}, pPhiLoop P k ty is s e → pPhiLoop P k' ty is s e := by
  intro is
  induction is with
  | nil => intro s e h; exact h
  | cons i is ih =>
    rintro s e ⟨r, x, h1, h2, h3⟩
    exact ⟨r, x, pPhiIn_mono hk h1, h2, ih h3⟩

theorem pPhi_mono {k k' v : Nat} {e : CAV} (hk : k ≤ k') (h : pPhi P k v e) : pPhi P k' v e := by
  unfold pPhi at *
  split at h
  · obtain ⟨t, h1, h2⟩ := h
    exact ⟨t, h1, pPhiLoop_mono hk h2⟩
  · exact h.elim

/-! ## One result -/

theorem ok_inj {A : Type} {x : Out A} {a b : A} (h1 : x = .ok a) (h2 : x = .ok b) : a = b := by
  rw [h1] at h2; cases h2; rfl

theorem pAlloca_det {a : Nat} {e e' : CAV} (h : pAlloca P a e) (h' : pAlloca P a e') : e = e' := by
  unfold pAlloca at *
  split at h
  · rename_i hk
    rw [hk] at h'
    obtain ⟨x, h1, rfl⟩ := h
    obtain ⟨y, h2, rfl⟩ := h'
    rw [ok_inj h1 h2]
  · exact h.elim

theorem pGEP_det {a : Nat} {e e' : CAV} (h : pGEP P a e) (h' : pGEP P a e') : e = e' := by
  unfold pGEP at *
  split at h
  · rename_i hk
    rw [hk] at h'
    exact h.2.trans h'.2.symm
  · exact h.elim

theorem pBase_det {a : Nat} {e e' : CAV} (h : pBase P a e) (h' : pBase P a e') : e = e' := by
  unfold pBase at *
  split at h
  · rename_i hk; rw [hk] at h'; exact pAlloca_det h h'
  · rename_i hk; rw [hk] at h'; exact pGEP_det h h'
  · exact h.elim

theorem pLoad_det {k v p : Nat} {e e' : CAV} (h : pLoad P k v p e) (h' : pLoad P k v p e') : e = e' := by
  unfold pLoad at *
  split at h
  · rename_i hk; rw [hk] at h'; exact pAlloca_det h h'
  · rename_i hk; rw [hk] at h'; exact pGEP_det h h'
  · obtain ⟨b, h1, h2⟩ := h
    rename_i n1 n2
    cases hp : P.kind p with
    | alloca x y z => exact (n1 _ _ _ hp).elim
    | gep x y z w => exact (n2 _ _ _ _ hp).elim
    | _ =>
      simp only [hp] at h'
      obtain ⟨b', h3, h4⟩ := h'
      cases ok_inj h1 h3
      exact pBase_det h2 h4

theorem pOperand'_det {k : Nat} {R : Nat → CAV → Prop} {g : Bool} {v : Nat} {e e' : CAV} (hR : ∀ v e e', R v e → R v e' → e = e')
    (h : pOperand' P k R g v e) (h' : pOperand' P k R g v e') : e = e' := by
  unfold pOperand' at *
  cases hk : P.kind v <;> simp only [hk] at h h' 
  case constInt x => exact ok_inj h h'
  case null => exact h.trans h'.symm
  case load p =>
    cases hp : P.kind p <;> simp only [hp] at h h'
    case alloca x y z => exact pAlloca_det h h'
    all_goals exact pLoad_det h h'
  case bin => exact hR _ _ _ h h'
  case call => exact ok_inj h h'
  case gep => exact pGEP_det h.2 h'.2

theorem pOperand_det {k : Nat} {R : Nat → CAV → Prop} {g : Bool} {v : Nat} {e e' : CAV} (hR : ∀ v e e', R v e → R v e' → e = e')
    (h : pOperand P k R g v e) (h' : pOperand P k R g v e') : e = e' := by
  unfold pOperand at *
  cases hk : P.kind v <;> simp only [hk] at h h' <;> exact pOperand'_det hR h h'

theorem pBin_det : ∀ {k v : Nat} {e e' : CAV}, pBin P k v e → pBin P k v e' → e = e' := by
  intro k
  induction k with
  | zero => intro v e e' h; exact h.elim
  | succ k ih =>
    intro v e e' h h'
    unfold pBin at h h'
    split at h
    · rename_i hk; rw [hk] at h'
      obtain ⟨a, b, x, h1, h2, h3, rfl⟩ := h
      obtain ⟨a', b', x', h1', h2', h3', rfl⟩ := h'
      cases pOperand_det (R := pBin P k) (fun _ _ _ => ih) h1 h1'
      cases pOperand_det (R := pBin P k) (fun _ _ _ => ih) h2 h2'
      rw [ok_inj h3 h3']
    · exact h.elim

theorem pBin_det' {k k' v : Nat} {e e' : CAV} (h : pBin P k v e) (h' : pBin P k' v e') : e = e' :=
  pBin_det (pBin_mono (Nat.le_max_left k k') h) (pBin_mono (Nat.le_max_right k k') h')

theorem pCmp_det {k v : Nat} {e e' : CAV} (h : pCmp P k v e) (h' : pCmp P k v e') : e = e' := by
  unfold pCmp at *
  split at h
  · rename_i hk; rw [hk] at h'
    obtain ⟨a, b, x, h1, h2, h3, rfl⟩ := h
    obtain ⟨a', b', x', h1', h2', h3', rfl⟩ := h'
    cases pOperand_det (R := pBin P k) (fun _ _ _ => pBin_det) h1 h1'
    cases pOperand_det (R := pBin P k) (fun _ _ _ => pBin_det) h2 h2'
    rw [ok_inj h3 h3']
  · exact h.elim

theorem pPhiIn_det {k i : Nat} {ty : E} {e e' : CAV} (h : pPhiIn P k ty i e) (h' : pPhiIn P k ty i e') : e = e' := by
  unfold pPhiIn at *
  split at h <;> rename_i hk <;> (try rw [hk] at h') <;> (try exact h.elim)
  · exact h.trans h'.symm
  · exact pLoad_det h h'
  · exact ok_inj h h'
  · exact pCmp_det h h'

theorem pPhiLoop_det {k : Nat} {ty : E} : ∀ {is : List Nat} {s e e' : CAV}, pPhiLoop P k ty is s e → pPhiLoop P k ty is s e' → e = e' := by
  intro is
  induction is with
  | nil => intro s e e' h h'; exact h.trans h'.symm
  | cons i is ih =>
    rintro s e e' ⟨r, x, h1, h2, h3⟩ ⟨r', x', h1', h2', h3'⟩
    cases pPhiIn_det h1 h1'
    cases ok_inj h2 h2'
    exact ih h3 h3'

theorem pPhi_det {k v : Nat} {e e' : CAV} (h : pPhi P k v e) (h' : pPhi P k v e') : e = e' := by
  unfold pPhi at *
  split at h
  · rename_i hk; rw [hk] at h'
    obtain ⟨t, h1, h2⟩ := h
    obtain ⟨t', h1', h2'⟩ := h'
    cases ok_inj h1 h1'
    exact pPhiLoop_det h2 h2'
  · exact h.elim

theorem pPhi_det' {k k' v : Nat} {e e' : CAV} (h : pPhi P k v e) (h' : pPhi P k' v e') : e = e' :=
  pPhi_det (pPhi_mono (Nat.le_max_left k k') h) (pPhi_mono (Nat.le_max_right k k') h')

theorem pVal_det {v : Nat} {e e' : CAV} (h : pVal P v e) (h' : pVal P v e') : e = e' := by
  unfold pVal at *
  split at h <;> rename_i hk <;> (try rw [hk] at h') <;> (try exact h.elim)
  · exact pAlloca_det h h'
  · exact pGEP_det h h'
  · exact pBin_det' h.choose_spec h'.choose_spec
  · exact pPhi_det' h.choose_spec h'.choose_spec

/-! ## The cached functions -/

theorem emplace_ok {c : Cache} (hc : CacheOk P c) {v : Nat} {e : CAV} (he : pVal P v e) :
    (emplace c v e).1 = e ∧ CacheOk P (emplace c v e).2 := by
  unfold emplace
  split
  · rename_i e' h
    exact ⟨pVal_det (hc v e' h) he, hc⟩
  · refine ⟨rfl, fun u x h => ?_⟩
    dsimp only at h
    split at h
    · rename_i hu; cases h; subst hu; exact he
    · exact hc u x h

/-- A function with cache computes what the relation says. -/
def Sim (P : Prog) (f : Cache → Out (CAV × Cache)) (T : CAV → Prop) : Prop :=
  ∀ c, CacheOk P c → ∀ e, T e → ∃ c', f c = .ok (e, c') ∧ CacheOk P c'

/-- What a function with cache computes is what the relation says for some number of steps. -/
def Sound (P : Prog) (f : Cache → Out (CAV × Cache)) (T : CAV → Prop) : Prop :=
  ∀ c, CacheOk P c → ∀ e c', f c = .ok (e, c') → T e ∧ CacheOk P c'

theorem getAlloca_ok (a : Nat) : Sim P (getAlloca P a) (pAlloca P a) ∧ (∀ x y z, P.kind a = .alloca x y z → Sound P (getAlloca P a) (pAlloca P a)) := by
  constructor
  · intro c hc e he
    have hv : pVal P a e := by
      unfold pVal
      unfold pAlloca at he
      split at he
      · rename_i hk
        simp only [hk]
        unfold pAlloca; simp only [hk]; exact he
      · exact he.elim
    unfold getAlloca
    split
    · rename_i e' h
      cases pVal_det (hc a e' h) hv
      exact ⟨c, rfl, hc⟩
    · unfold pAlloca at he
      split at he
      · rename_i hk
        obtain ⟨x, h1, rfl⟩ := he
        simp only [hk, h1, Out.bind]
        obtain ⟨h2, h3⟩ := emplace_ok hc hv
        exact ⟨_, congrArg Out.ok (Prod.ext h2 rfl), h3⟩
      · exact he.elim
  · intro x y z hk c hc e c' h
    unfold getAlloca at h
    split at h
    · rename_i e' he
      cases h
      have := hc a e he
      simp only [pVal, hk] at this
      exact ⟨this, hc⟩
    · simp only [hk, Out.bind_ok] at h
      obtain ⟨t, h1, h2⟩ := h
      have hT : pAlloca P a (t, [a]) := by simp only [pAlloca, hk]; exact ⟨t, h1, rfl⟩
      have hv : pVal P a (t, [a]) := by simp only [pVal, hk]; exact hT
      obtain ⟨h3, h4⟩ := emplace_ok hc hv
      have h2 := Out.ok.inj h2
      rw [h2] at h3 h4
      rw [show e = (t, [a]) from h3]
      exact ⟨hT, h4⟩

theorem getGEP_eq (g : Nat) (c : Cache) : (∃ e, pGEP P g e ∧ getGEP P g c = .ok (emplace c g e)) ∨ ((∀ e, ¬ pGEP P g e) ∧ getGEP P g c = .fail) := by
  unfold pGEP getGEP
  cases hk : P.kind g with
  | gep name id ty ops =>
    cases ty with
    | fp => right; simp
    | int w => left; exact ⟨_, ⟨by simp, rfl⟩, rfl⟩
    | ptr => left; exact ⟨_, ⟨by simp, rfl⟩, rfl⟩
    | other => left; exact ⟨_, ⟨by simp, rfl⟩, rfl⟩
  | _ => right; simp

theorem getGEP_ok (g : Nat) : Sim P (getGEP P g) (pGEP P g) ∧ Sound P (getGEP P g) (pGEP P g) := by
  have hval : ∀ e, pGEP P g e → pVal P g e := by
    intro e he
    unfold pVal
    have he' := he
    unfold pGEP at he'
    split at he'
    · rename_i hk; simp only [hk]; exact he
    · exact he'.elim
  constructor
  · intro c hc e he
    rcases getGEP_eq (P := P) g c with ⟨e', h1, h2⟩ | ⟨h1, _⟩
    · cases pGEP_det he h1
      obtain ⟨h3, h4⟩ := emplace_ok hc (hval e he)
      exact ⟨_, h2.trans (congrArg Out.ok (Prod.ext h3 rfl)), h4⟩
    · exact (h1 e he).elim
  · intro c hc e c' h
    rcases getGEP_eq (P := P) g c with ⟨e', h1, h2⟩ | ⟨_, h2⟩
    · obtain ⟨h3, h4⟩ := emplace_ok hc (hval e' h1)
      rw [h2] at h
      have h := Out.ok.inj h
      rw [h] at h3 h4
      cases h3
      exact ⟨h1, h4⟩
    · rw [h2] at h; cases h

theorem getBase_ok (v : Nat) : Sim P (getBase P v) (pBase P v) ∧ Sound P (getBase P v) (pBase P v) := by
  unfold getBase pBase Sim Sound
  cases hk : P.kind v with
  | alloca x y z => exact ⟨(getAlloca_ok v).1, (getAlloca_ok v).2 _ _ _ hk⟩
  | gep a b c d => exact getGEP_ok v
  | _ => exact ⟨fun c _ e h => h.elim, fun c _ e c' h => by cases h⟩

theorem getLoad_ok {k v p : Nat} (hk : P.kind v = .load p) :
    Sim P (getLoad P k v p) (pLoad P k v p) ∧ Sound P (getLoad P k v p) (pLoad P k v p) := by
  have hn : ∀ c, CacheOk P c → c v = none := by
    intro c hc
    cases h : c v with
    | none => rfl
    | some e => have := hc v e h; simp only [pVal, hk] at this
  constructor
  · intro c hc e he
    unfold getLoad
    rw [hn c hc]
    unfold pLoad at he
    cases hp : P.kind p with
    | alloca x y z => simp only [hp] at he ⊢; exact (getAlloca_ok p).1 c hc e he
    | gep a b d f => simp only [hp] at he ⊢; exact (getGEP_ok p).1 c hc e he
    | _ =>
      simp only [hp] at he ⊢
      obtain ⟨b, h1, h2⟩ := he
      rw [h1]
      exact (getBase_ok b).1 c hc e h2
  · intro c hc e c' h
    unfold getLoad at h
    rw [hn c hc] at h
    unfold pLoad
    cases hp : P.kind p with
    | alloca x y z => simp only [hp] at h ⊢; exact (getAlloca_ok p).2 _ _ _ hp c hc e c' h
    | gep a b d f => simp only [hp] at h ⊢; exact (getGEP_ok p).2 c hc e c' h
    | _ =>
      simp only [hp, Out.bind_ok] at h ⊢
      obtain ⟨b, h1, h2⟩ := h
      obtain ⟨h3, h4⟩ := (getBase_ok b).2 c hc e c' h2
      exact ⟨⟨b, h1, h3⟩, h4⟩

theorem operand'_sim {k : Nat} {rec : Nat → Cache → Out (CAV × Cache)} {R : Nat → CAV → Prop} (g : Bool) (v : Nat)
    (h1 : ∀ v, (∃ o l r, P.kind v = .bin o l r) → Sim P (rec v) (R v)) : Sim P (operand' P k rec g v) (pOperand' P k R g v) := by
  unfold operand' pOperand' Sim
  cases hk : P.kind v with
  | constInt x =>
    intro c hc e h
    have h : intLit x = .ok e := h
    exact ⟨c, by simp only [h, Out.bind], hc⟩
  | null => exact fun c hc e h => ⟨c, by rw [show e = _ from h], hc⟩
  | load p =>
    dsimp only
    cases hp : P.kind p with
    | alloca x y z => exact (getAlloca_ok p).1
    | _ => exact (getLoad_ok hk).1
  | bin o l r => exact h1 v ⟨_, _, _, hk⟩
  | call f ops =>
    intro c hc e h
    have h : getCall f = .ok e := h
    exact ⟨c, by simp only [h, Out.bind], hc⟩
  | gep a b d f =>
    intro c hc e h
    have h : g = true ∧ pGEP P v e := h
    rw [h.1]
    exact (getGEP_ok v).1 c hc e h.2
  | _ => exact fun c _ e h => h.elim

theorem operand'_sound {k : Nat} {rec : Nat → Cache → Out (CAV × Cache)} {R : Nat → CAV → Prop} (g : Bool) (v : Nat)
    (h1 : ∀ v, (∃ o l r, P.kind v = .bin o l r) → Sound P (rec v) (R v)) : Sound P (operand' P k rec g v) (pOperand' P k R g v) := by
  unfold operand' pOperand' Sound
  cases hk : P.kind v with
  | constInt x =>
    intro c hc e c' h
    simp only [Out.bind_ok] at h
    obtain ⟨a, h2, h3⟩ := h
    cases h3
    exact ⟨h2, hc⟩
  | null => exact fun c hc e c' h => by cases h; exact ⟨rfl, hc⟩
  | load p =>
    dsimp only
    cases hp : P.kind p with
    | alloca x y z => exact (getAlloca_ok p).2 _ _ _ hp
    | _ => exact (getLoad_ok hk).2
  | bin o l r => exact h1 v ⟨_, _, _, hk⟩
  | call f ops =>
    intro c hc e c' h
    simp only [Out.bind_ok] at h
    obtain ⟨a, h2, h3⟩ := h
    cases h3
    exact ⟨h2, hc⟩
  | gep a b d f =>
    intro c hc e c' h
    cases g with
    | false => cases h
    | true =>
      obtain ⟨h2, h3⟩ := (getGEP_ok v).2 c hc e c' h
      exact ⟨⟨rfl, h2⟩, h3⟩
  | _ => exact fun c _ e c' h => by cases h

theorem operand_sim {k : Nat} {rec : Nat → Cache → Out (CAV × Cache)} {R : Nat → CAV → Prop} (g : Bool) (v : Nat)
    (h1 : ∀ v, (∃ o l r, P.kind v = .bin o l r) → Sim P (rec v) (R v)) : Sim P (operand P k rec g v) (pOperand P k R g v) := by
  unfold operand pOperand Sim
  cases hk : P.kind v <;> exact operand'_sim g _ h1

theorem operand_sound {k : Nat} {rec : Nat → Cache → Out (CAV × Cache)} {R : Nat → CAV → Prop} (g : Bool) (v : Nat)
    (h1 : ∀ v, (∃ o l r, P.kind v = .bin o l r) → Sound P (rec v) (R v)) : Sound P (operand P k rec g v) (pOperand P k R g v) := by
  unfold operand pOperand Sound
  cases hk : P.kind v <;> exact operand'_sound g _ h1

theorem handleBin_sim : ∀ (k v : Nat), Sim P (handleBin P k v) (pBin P k v) := by
  intro k
  induction k with
  | zero => intro v c _ e h; exact h.elim
  | succ k ih =>
    intro v c hc e he
    have hval : ∀ k e, pBin P k v e → pVal P v e := by
      intro k e h
      have h' := h
      cases k with
      | zero => exact h.elim
      | succ k =>
        unfold pBin at h'
        split at h'
        · rename_i hk; simp only [pVal, hk]; exact ⟨_, h⟩
        · exact h'.elim
    unfold handleBin
    split
    · rename_i e' h
      cases pVal_det (hc v e' h) (hval _ _ he)
      exact ⟨c, rfl, hc⟩
    · have he0 := he
      unfold pBin at he
      split at he
      · rename_i hk
        obtain ⟨a, b, x, h1, h2, h3, rfl⟩ := he
        obtain ⟨c1, h4, h5⟩ := operand_sim false _ (fun v _ => ih v) c hc a h1
        obtain ⟨c2, h6, h7⟩ := operand_sim false _ (fun v _ => ih v) c1 h5 b h2
        obtain ⟨h8, h9⟩ := emplace_ok h7 (hval _ _ he0)
        simp only [hk, h4, h6, h3, Out.bind]
        exact ⟨_, congrArg Out.ok (Prod.ext h8 rfl), h9⟩
      · exact he.elim

theorem pOperand_lift {k : Nat} {g : Bool} {v : Nat} {e : CAV} (h : pOperand P k (fun v e => ∃ k, pBin P k v e) g v e) :
    ∃ k', pOperand P k' (pBin P k') g v e := by
  unfold pOperand at *
  have key : ∀ u, pOperand' P k (fun v e => ∃ k, pBin P k v e) g u e → ∃ k', pOperand' P k' (pBin P k') g u e := by
    intro u h
    cases hk : P.kind u with
    | bin o l r =>
      simp only [pOperand', hk] at h ⊢
      exact h
    | _ =>
      refine ⟨k, ?_⟩
      simp only [pOperand', hk] at h ⊢
      try exact h
  cases hk : P.kind v <;> simp only [hk] at h <;> exact key _ h

theorem handleBin_sound : ∀ (k v : Nat), (∃ o l r, P.kind v = .bin o l r) → Sound P (handleBin P k v) (fun e => ∃ k', pBin P k' v e) := by
  intro k
  induction k with
  | zero => intro v _ c _ e c' h; cases h
  | succ k ih =>
    rintro v ⟨o, l, r, hk⟩ c hc e c' h
    unfold handleBin at h
    split at h
    · rename_i e' he
      cases h
      have := hc v e he
      simp only [pVal, hk] at this
      exact ⟨this, hc⟩
    · simp only [hk, Out.bind_ok] at h
      obtain ⟨⟨a, c1⟩, h1, ⟨b, c2⟩, h2, x, h3, h4⟩ := h
      obtain ⟨h5, h6⟩ := operand_sound false l ih c hc a c1 h1
      obtain ⟨h7, h8⟩ := operand_sound false r ih c1 h6 b c2 h2
      obtain ⟨k1, h5⟩ := pOperand_lift h5
      obtain ⟨k2, h7⟩ := pOperand_lift h7
      have hb : pBin P (max k1 k2 + 1) v (x, a.2 ++ b.2) := by
        simp only [pBin, hk]
        exact ⟨a, b, x, pOperand_mono (Nat.le_max_left _ _) (fun _ _ => pBin_mono (Nat.le_max_left _ _)) h5,
          pOperand_mono (Nat.le_max_right _ _) (fun _ _ => pBin_mono (Nat.le_max_right _ _)) h7, h3, rfl⟩
      obtain ⟨h9, h10⟩ := emplace_ok (v := v) (e := (x, a.2 ++ b.2)) h8 (by simp only [pVal, hk]; exact ⟨_, hb⟩)
      have h4 := Out.ok.inj h4
      rw [h4] at h9 h10
      rw [show e = (x, a.2 ++ b.2) from h9]
      exact ⟨⟨_, hb⟩, h10⟩

theorem cmp_none {c : Cache} (hc : CacheOk P c) {v : Nat} (hk : ∀ e, ¬ pVal P v e) : c v = none := by
  cases h : c v with
  | none => rfl
  | some e => exact (hk e (hc v e h)).elim

theorem handleCmp_sim (k v : Nat) : Sim P (handleCmp P k v) (pCmp P k v) := by
  intro c hc e he
  unfold pCmp at he
  split at he
  · rename_i hk
    unfold handleCmp
    rw [cmp_none hc (by intro e h; simp only [pVal, hk] at h)]
    obtain ⟨a, b, x, h1, h2, h3, rfl⟩ := he
    obtain ⟨c1, h4, h5⟩ := operand_sim true _ (fun v _ => handleBin_sim k v) c hc a h1
    obtain ⟨c2, h6, h7⟩ := operand_sim true _ (fun v _ => handleBin_sim k v) c1 h5 b h2
    simp only [hk, h4, h6, h3, Out.bind]
    exact ⟨_, rfl, h7⟩
  · exact he.elim

theorem handleCmp_sound {k v : Nat} (hk : ∃ p l r, P.kind v = .cmp p l r) : Sound P (handleCmp P k v) (fun e => ∃ k', pCmp P k' v e) := by
  obtain ⟨p, l, r, hk⟩ := hk
  intro c hc e c' h
  unfold handleCmp at h
  rw [cmp_none hc (by intro e h; simp only [pVal, hk] at h)] at h
  simp only [hk, Out.bind_ok] at h
  obtain ⟨⟨a, c1⟩, h1, ⟨b, c2⟩, h2, x, h3, h4⟩ := h
  obtain ⟨h5, h6⟩ := operand_sound true l (handleBin_sound k) c hc a c1 h1
  obtain ⟨h7, h8⟩ := operand_sound true r (handleBin_sound k) c1 h6 b c2 h2
  obtain ⟨k1, h5⟩ := pOperand_lift h5
  obtain ⟨k2, h7⟩ := pOperand_lift h7
  cases h4
  refine ⟨⟨max k1 k2, ?_⟩, h8⟩
  simp only [pCmp, hk]
  exact ⟨a, b, x, pOperand_mono (Nat.le_max_left _ _) (fun _ _ => pBin_mono (Nat.le_max_left _ _)) h5,
    pOperand_mono (Nat.le_max_right _ _) (fun _ _ => pBin_mono (Nat.le_max_right _ _)) h7, h3, rfl⟩

theorem phiIn_sim {k : Nat} {ty : E} {i : Nat} {s r : CAV} {x : E} {c : Cache} (hc : CacheOk P c) (h1 : pPhiIn P k ty i r)
    (h2 : mkOr s.1 r.1 = .ok x) : ∃ c', phiIn P k ty (s, c) i = .ok ((x, s.2 ++ r.2), c') ∧ CacheOk P c' := by
  unfold phiIn
  unfold pPhiIn at h1
  cases hk : P.kind i <;> simp only [hk] at h1
  case constInt y =>
    subst h1
    dsimp only
    split at h2
    · rename_i hy; rw [if_pos hy]; simp only [h2, Out.bind]; rw [if_pos hy]; exact ⟨c, rfl, hc⟩
    · rename_i hy
      rw [if_neg hy]
      split at h2
      · rename_i hz; rw [if_pos hz]; simp only [h2, Out.bind]; rw [if_neg hy, if_pos hz]; exact ⟨c, rfl, hc⟩
      · rename_i hz; rw [if_neg hz]; simp only [h2, Out.bind]; rw [if_neg hy, if_neg hz]; exact ⟨c, rfl, hc⟩
  case load p =>
    obtain ⟨c', h3, h4⟩ := (getLoad_ok hk).1 c hc r h1
    simp only [h3, h2, Out.bind]
    exact ⟨_, rfl, h4⟩
  case call f ops =>
    simp only [h1, h2, Out.bind]
    exact ⟨_, rfl, hc⟩
  case cmp p l q =>
    obtain ⟨c', h3, h4⟩ := handleCmp_sim k i c hc r h1
    simp only [h3, h2, Out.bind]
    exact ⟨_, rfl, h4⟩

theorem phiIn_sound {k : Nat} {ty : E} {i : Nat} {s e : CAV} {c c' : Cache} (hc : CacheOk P c)
    (h : phiIn P k ty (s, c) i = .ok (e, c')) : ∃ k' r x, pPhiIn P k' ty i r ∧ mkOr s.1 r.1 = .ok x ∧ e = (x, s.2 ++ r.2) ∧ CacheOk P c' := by
  unfold phiIn at h
  cases hk : P.kind i <;> simp only [hk] at h <;> (try cases h; done)
  case constInt y =>
    simp only [pPhiIn, hk]
    refine ⟨k, if y.bits = 1 then (.boolV true, []) else if y.bits = 0 then (.boolV false, []) else (ty, []), e.1, rfl, ?_⟩
    split at h
    · obtain ⟨x, h1, h2⟩ := Out.bind_ok.1 h; cases h2; rename_i hy; rw [if_pos hy]; exact ⟨h1, rfl, hc⟩
    · rename_i hy
      rw [if_neg hy]
      split at h
      · obtain ⟨x, h1, h2⟩ := Out.bind_ok.1 h; cases h2; rename_i hz; rw [if_pos hz]; exact ⟨h1, rfl, hc⟩
      · obtain ⟨x, h1, h2⟩ := Out.bind_ok.1 h; cases h2; rename_i hz; rw [if_neg hz]; exact ⟨h1, rfl, hc⟩
  case load p =>
    obtain ⟨⟨r, c1⟩, h1, h2⟩ := Out.bind_ok.1 h
    obtain ⟨x, h3, h4⟩ := Out.bind_ok.1 h2
    cases h4
    obtain ⟨h5, h6⟩ := (getLoad_ok hk).2 c hc r c1 h1
    exact ⟨k, r, x, by simp only [pPhiIn, hk]; exact h5, h3, rfl, h6⟩
  case call f ops =>
    obtain ⟨r, h1, h2⟩ := Out.bind_ok.1 h
    obtain ⟨x, h3, h4⟩ := Out.bind_ok.1 h2
    cases h4
    exact ⟨k, r, x, by simp only [pPhiIn, hk]; exact h1, h3, rfl, hc⟩
  case cmp p l q =>
    obtain ⟨⟨r, c1⟩, h1, h2⟩ := Out.bind_ok.1 h
    obtain ⟨x, h3, h4⟩ := Out.bind_ok.1 h2
    cases h4
    obtain ⟨⟨k', h5⟩, h6⟩ := handleCmp_sound ⟨_, _, _, hk⟩ c hc r c1 h1
    exact ⟨k', r, x, by simp only [pPhiIn, hk]; exact h5, h3, rfl, h6⟩

theorem phiLoop_sim {k : Nat} {ty : E} : ∀ {is : List Nat} {s e : CAV} {c : Cache}, CacheOk P c → pPhiLoop P k ty is s e →
    ∃ c', phiLoop P k ty is (s, c) = .ok (e, c') ∧ CacheOk P c' := by
  intro is
  induction is with
  | nil => intro s e c hc h; cases h; exact ⟨c, rfl, hc⟩
  | cons i is ih =>
    rintro s e c hc ⟨r, x, h1, h2, h3⟩
    obtain ⟨c1, h4, h5⟩ := phiIn_sim hc h1 h2
    obtain ⟨c2, h6, h7⟩ := ih h5 h3
    exact ⟨c2, by simp only [phiLoop, h4, Out.bind, h6], h7⟩

theorem phiLoop_sound {k : Nat} {ty : E} : ∀ {is : List Nat} {s e : CAV} {c c' : Cache}, CacheOk P c →
    phiLoop P k ty is (s, c) = .ok (e, c') → ∃ k', pPhiLoop P k' ty is s e ∧ CacheOk P c' := by
  intro is
  induction is with
  | nil => intro s e c c' hc h; cases h; exact ⟨0, rfl, hc⟩
  | cons i is ih =>
    intro s e c c' hc h
    obtain ⟨⟨e1, c1⟩, h1, h2⟩ := Out.bind_ok.1 h
    obtain ⟨k1, r, x, h3, h4, rfl, h5⟩ := phiIn_sound hc h1
    obtain ⟨k2, h6, h7⟩ := ih h5 h2
    exact ⟨max k1 k2, ⟨r, x, pPhiIn_mono (Nat.le_max_left _ _) h3, h4, pPhiLoop_mono (Nat.le_max_right _ _) h6⟩, h7⟩

theorem pPhi_val {k v : Nat} {e : CAV} (h : pPhi P k v e) : pVal P v e := by
  have h' := h
  unfold pPhi at h'
  split at h'
  · rename_i hk; simp only [pVal, hk]; exact ⟨_, h⟩
  · exact h'.elim

theorem handlePhi_sim (k v : Nat) : Sim P (handlePhi P k v) (pPhi P k v) := by
  intro c hc e he
  unfold handlePhi
  split
  · rename_i e' h
    cases pVal_det (hc v e' h) (pPhi_val he)
    exact ⟨c, rfl, hc⟩
  · have he' := he
    unfold pPhi at he'
    split at he'
    · rename_i hk
      obtain ⟨t, h1, h2⟩ := he'
      obtain ⟨c1, h3, h4⟩ := phiLoop_sim hc h2
      simp only [hk, h1, Out.bind, h3]
      obtain ⟨h5, h6⟩ := emplace_ok h4 (pPhi_val he)
      exact ⟨_, congrArg Out.ok (Prod.ext h5 rfl), h6⟩
    · exact he'.elim

theorem handlePhi_sound {k v : Nat} (hk : ∃ t is, P.kind v = .phi t is) : Sound P (handlePhi P k v) (fun e => ∃ k', pPhi P k' v e) := by
  obtain ⟨ty, is, hk⟩ := hk
  intro c hc e c' h
  unfold handlePhi at h
  split at h
  · rename_i e' he
    cases h
    have := hc v e he
    simp only [pVal, hk] at this
    exact ⟨this, hc⟩
  · simp only [hk, Out.bind_ok] at h
    obtain ⟨t, h1, ⟨e1, c1⟩, h2, h3⟩ := h
    obtain ⟨k', h4, h5⟩ := phiLoop_sound hc h2
    have hp : pPhi P k' v e1 := by simp only [pPhi, hk]; exact ⟨t, h1, h4⟩
    obtain ⟨h6, h7⟩ := emplace_ok h5 (pPhi_val hp)
    have h3 := Out.ok.inj h3
    dsimp only at h3 h6 h7
    rw [h3] at h6 h7
    rw [show e = e1 from h6]
    exact ⟨⟨_, hp⟩, h7⟩

/-- The translation of a condition for one way. -/
def pWay (P : Prog) (ign : Bool) (t f succ : Nat) (T : CAV → Prop) (e : CAV) : Prop :=
  if firstInst P ign t = some succ then T e
  else if firstInst P ign f = some succ then ∃ x n, T x ∧ mkNot x.1 = .ok n ∧ e = (n, x.2)
  else False

/-- The translation of the condition of a branch. -/
def pCond (P : Prog) (k : Nat) (ign : Bool) (cond t f succ : Nat) (e : CAV) : Prop :=
  match P.kind cond with
  | .cmp .. => pWay P ign t f succ (pCmp P k cond) e
  | .bin .. => pWay P ign t f succ (pBin P k cond) e
  | .call g _ => pWay P ign t f succ (fun e => getCall g = .ok e) e
  | .cast .trunc w v => w = 1 ∧
    match P.kind v with
    | .load p => ∃ x o, pLoad P k v p x ∧ mkOdd x.1 = .ok o ∧ e = (o, x.2)
    | _ => False
  | .phi .. => pPhi P k cond e
  | _ => False

/-- The translation of an edge. -/
def pEdge (P : Prog) (k : Nat) (ign : Bool) (a b : Nat) (e : Option CAV) : Prop :=
  match P.br a with
  | none => e = none
  | some (cond, t, f) =>
    if isTarget P t f (rewind P ign b) then ∃ x, pCond P k ign cond t f (rewind P ign b) x ∧ e = some (x.1, x.2.eraseDups)
    else e = none

theorem pWay_mono {ign : Bool} {t f succ : Nat} {T T' : CAV → Prop} (h : ∀ e, T e → T' e) {e : CAV} (he : pWay P ign t f succ T e) :
    pWay P ign t f succ T' e := by
  unfold pWay at *
  split at he
  · rename_i h1; rw [if_pos h1]; exact h e he
  · rename_i h1
    rw [if_neg h1]
    split at he
    · rename_i h2
      rw [if_pos h2]
      obtain ⟨x, n, h3, h4⟩ := he
      exact ⟨x, n, h x h3, h4⟩
    · exact he.elim

theorem pCond_mono {k k' : Nat} (hk : k ≤ k') {ign : Bool} {cond t f succ : Nat} {e : CAV} (h : pCond P k ign cond t f succ e) :
    pCond P k' ign cond t f succ e := by
  unfold pCond at *
  split at h
  · exact pWay_mono (fun _ => pCmp_mono hk) h
  · exact pWay_mono (fun _ => pBin_mono hk) h
  · exact h
  · refine ⟨h.1, ?_⟩
    have h := h.2
    split at h
    · obtain ⟨x, o, h1, h2⟩ := h
      exact ⟨x, o, pLoad_mono hk h1, h2⟩
    · exact h.elim
  · exact pPhi_mono hk h
  · exact h.elim

theorem pEdge_mono {k k' : Nat} (hk : k ≤ k') {ign : Bool} {a b : Nat} {e : Option CAV} (h : pEdge P k ign a b e) : pEdge P k' ign a b e := by
  unfold pEdge at *
  split at h
  · exact h
  · split at h
    · rename_i h1
      rw [if_pos h1]
      obtain ⟨x, h2, h3⟩ := h
      exact ⟨x, pCond_mono hk h2, h3⟩
    · rename_i h1; rw [if_neg h1]; exact h

theorem pWay_det {ign : Bool} {t f succ : Nat} {T : CAV → Prop} (h : ∀ e e', T e → T e' → e = e') {e e' : CAV}
    (he : pWay P ign t f succ T e) (he' : pWay P ign t f succ T e') : e = e' := by
  unfold pWay at *
  split at he
  · rename_i h1; rw [if_pos h1] at he'; exact h _ _ he he'
  · rename_i h1
    rw [if_neg h1] at he'
    split at he
    · rename_i h2
      rw [if_pos h2] at he'
      obtain ⟨x, n, h1, h2, rfl⟩ := he
      obtain ⟨x', n', h1', h2', rfl⟩ := he'
      cases h _ _ h1 h1'
      cases ok_inj h2 h2'
      rfl
    · exact he.elim

theorem pCond_det {k : Nat} {ign : Bool} {cond t f succ : Nat} {e e' : CAV} (h : pCond P k ign cond t f succ e)
    (h' : pCond P k ign cond t f succ e') : e = e' := by
  unfold pCond at *
  split at h <;> (try exact h.elim) <;> rename_i hk <;> simp only [hk] at h'
  · exact pWay_det (fun _ _ => pCmp_det) h h'
  · exact pWay_det (fun _ _ => pBin_det) h h'
  · exact pWay_det (fun _ _ => ok_inj) h h'
  · have h := h.2
    have h' := h'.2
    split at h
    · rename_i hl
      simp only [hl] at h'
      obtain ⟨x, o, h1, h2, rfl⟩ := h
      obtain ⟨x', o', h1', h2', rfl⟩ := h'
      cases pLoad_det h1 h1'
      cases ok_inj h2 h2'
      rfl
    · exact h.elim
  · exact pPhi_det h h'

theorem pEdge_det {k k' : Nat} {ign : Bool} {a b : Nat} {e e' : Option CAV} (h : pEdge P k ign a b e) (h' : pEdge P k' ign a b e') : e = e' := by
  have h := pEdge_mono (Nat.le_max_left k k') h
  have h' := pEdge_mono (Nat.le_max_right k k') h'
  unfold pEdge at *
  split at h <;> rename_i hb <;> simp only [hb] at h'
  · exact h.trans h'.symm
  · split at h
    · rename_i ht
      rw [if_pos ht] at h'
      obtain ⟨x, h2, rfl⟩ := h
      obtain ⟨x', h2', rfl⟩ := h'
      rw [pCond_det h2 h2']
    · rename_i ht
      rw [if_neg ht] at h'
      exact h.trans h'.symm

theorem pWay_sim {ign : Bool} {t f succ : Nat} {T : CAV → Prop} {F : Cache → Out (CAV × Cache)} (hF : Sim P F T) :
    Sim P (fun c => (bothWays P ign t f succ (F c)).getD .fail) (pWay P ign t f succ T) := by
  intro c hc e he
  unfold pWay at he
  unfold bothWays
  split at he
  · rename_i h1; dsimp only; rw [if_pos h1]; exact hF c hc e he
  · rename_i h1
    dsimp only
    rw [if_neg h1]
    split at he
    · rename_i h2
      rw [if_pos h2]
      obtain ⟨x, n, h3, h4, rfl⟩ := he
      obtain ⟨c', h5, h6⟩ := hF c hc x h3
      exact ⟨c', by simp only [Option.getD, h5, h4, Out.bind], h6⟩
    · exact he.elim

theorem pWay_sound {ign : Bool} {t f succ : Nat} {T : CAV → Prop} {F : Cache → Out (CAV × Cache)} (hF : Sound P F T) :
    Sound P (fun c => (bothWays P ign t f succ (F c)).getD .fail) (pWay P ign t f succ T) := by
  intro c hc e c' he
  unfold bothWays at he
  unfold pWay
  dsimp only at he
  split at he
  · rename_i h1; rw [if_pos h1]; exact hF c hc e c' he
  · rename_i h1
    rw [if_neg h1]
    split at he
    · rename_i h2
      rw [if_pos h2]
      simp only [Option.getD, Out.bind_ok] at he
      obtain ⟨⟨x, c1⟩, h3, n, h4, h5⟩ := he
      cases h5
      obtain ⟨h6, h7⟩ := hF c hc x c1 h3
      exact ⟨⟨x, n, h6, h4, rfl⟩, h7⟩
    · cases he

theorem call_sim (g : Option Callee) : Sim P (fun c => (getCall g).bind fun e => .ok (e, c)) (fun e => getCall g = .ok e) ∧
    Sound P (fun c => (getCall g).bind fun e => .ok (e, c)) (fun e => getCall g = .ok e) := by
  refine ⟨fun c hc e h => ⟨c, by simp only [h, Out.bind], hc⟩, fun c hc e c' h => ?_⟩
  obtain ⟨x, h1, h2⟩ := Out.bind_ok.1 h
  cases h2
  exact ⟨h1, hc⟩

theorem handleCondBr_sim {k : Nat} {ign : Bool} {br cond t f succ : Nat} (hbr : ∀ e, ¬ pVal P br e) :
    Sim P (handleCondBr P k ign br cond t f succ) (pCond P k ign cond t f succ) := by
  intro c hc e he
  unfold handleCondBr
  rw [cmp_none hc hbr]
  unfold pCond at he
  split at he <;> rename_i hk <;> (try exact he.elim) <;> simp only [hk]
  · exact pWay_sim (handleCmp_sim k cond) c hc e he
  · exact pWay_sim (handleBin_sim k cond) c hc e he
  · exact pWay_sim (call_sim _).1 c hc e he
  · rw [if_pos he.1]
    have he := he.2
    split at he
    · rename_i hl
      obtain ⟨x, o, h1, h2, rfl⟩ := he
      obtain ⟨c', h3, h4⟩ := (getLoad_ok hl).1 c hc x h1
      simp only [hl, h3, h2, Out.bind]
      exact ⟨_, rfl, h4⟩
    · exact he.elim
  · exact handlePhi_sim k cond c hc e he

theorem handleCondBr_sound {k : Nat} {ign : Bool} {br cond t f succ : Nat} (hbr : ∀ e, ¬ pVal P br e) :
    Sound P (handleCondBr P k ign br cond t f succ) (fun e => ∃ k', pCond P k' ign cond t f succ e) := by
  intro c hc e c' h
  unfold handleCondBr at h
  rw [cmp_none hc hbr] at h
  have way : ∀ {T : Nat → CAV → Prop} {e}, (∀ k k' e, k ≤ k' → T k e → T k' e) → pWay P ign t f succ (fun e => ∃ k', T k' e) e →
      ∃ k', pWay P ign t f succ (T k') e := by
    intro T e hm h
    unfold pWay at *
    split at h
    · rename_i h1; obtain ⟨k', h⟩ := h; exact ⟨k', by rw [if_pos h1]; exact h⟩
    · rename_i h1
      split at h
      · rename_i h2
        obtain ⟨x, n, ⟨k', h3⟩, h4⟩ := h
        exact ⟨k', by rw [if_neg h1, if_pos h2]; exact ⟨x, n, h3, h4⟩⟩
      · exact h.elim
  cases hk : P.kind cond <;> simp only [hk] at h <;> (try cases h; done)
  case cmp p l r =>
    obtain ⟨h1, h2⟩ := pWay_sound (handleCmp_sound ⟨_, _, _, hk⟩) c hc e c' h
    obtain ⟨k', h1⟩ := way (T := fun k e => pCmp P k cond e) (fun _ _ _ h => pCmp_mono h) h1
    exact ⟨⟨k', by simp only [pCond, hk]; exact h1⟩, h2⟩
  case bin o l r =>
    obtain ⟨h1, h2⟩ := pWay_sound (handleBin_sound _ _ ⟨_, _, _, hk⟩) c hc e c' h
    obtain ⟨k', h1⟩ := way (T := fun k e => pBin P k cond e) (fun _ _ _ h => pBin_mono h) h1
    exact ⟨⟨k', by simp only [pCond, hk]; exact h1⟩, h2⟩
  case call g ops =>
    obtain ⟨h1, h2⟩ := pWay_sound (call_sim _).2 c hc e c' h
    exact ⟨⟨0, by simp only [pCond, hk]; exact h1⟩, h2⟩
  case cast x w v =>
    cases x <;> simp only at h <;> (try cases h; done)
    split at h
    · rename_i hw
      split at h
      · rename_i hl
        simp only [Out.bind_ok] at h
        obtain ⟨⟨x, c1⟩, h1, o, h2, h3⟩ := h
        cases h3
        obtain ⟨h4, h5⟩ := (getLoad_ok hl).2 c hc x c1 h1
        exact ⟨⟨k, by simp only [pCond, hk, hl]; exact ⟨hw, x, o, h4, h2, rfl⟩⟩, h5⟩
      · cases h
    · cases h
  case phi ty is =>
    obtain ⟨⟨k', h1⟩, h2⟩ := handlePhi_sound ⟨_, _, hk⟩ c hc e c' h
    exact ⟨⟨k', by simp only [pCond, hk]; exact h1⟩, h2⟩

theorem WF.val {a : Nat} {x : Nat × Nat × Nat} (h : WF P) (ha : P.br a = some x) (e : CAV) : ¬ pVal P a e := by
  obtain ⟨ops, hk⟩ := h a x ha
  intro h; simp only [pVal, hk] at h

theorem edge_sim (hw : WF P) {k : Nat} {ign : Bool} {a b : Nat} {c : Cache} (hc : CacheOk P c) {e : Option CAV}
    (h : pEdge P k ign a b e) : ∃ c', edge P k ign a b c = .ok (e, c') ∧ CacheOk P c' := by
  unfold pEdge at h
  unfold edge
  split at h
  · rename_i hb; rw [hb]; cases h; exact ⟨c, rfl, hc⟩
  · rename_i cond t f hb
    rw [hb]
    dsimp only
    split at h
    · rename_i ht
      rw [if_pos ht]
      obtain ⟨x, h1, rfl⟩ := h
      obtain ⟨c', h2, h3⟩ := handleCondBr_sim (hw.val hb) c hc x h1
      exact ⟨c', by rw [h2]; rfl, h3⟩
    · rename_i ht; rw [if_neg ht]; cases h; exact ⟨c, rfl, hc⟩

theorem edge_sound (hw : WF P) {k : Nat} {ign : Bool} {a b : Nat} {c c' : Cache} (hc : CacheOk P c) {e : Option CAV}
    (h : edge P k ign a b c = .ok (e, c')) : (∃ k', pEdge P k' ign a b e) ∧ CacheOk P c' := by
  unfold edge at h
  unfold pEdge
  split at h
  · rename_i hb; rw [hb]; cases h; exact ⟨⟨0, rfl⟩, hc⟩
  · rename_i cond t f hb
    rw [hb]
    dsimp only at h ⊢
    split at h
    · rename_i ht
      obtain ⟨⟨x, c1⟩, h1, h2⟩ := Out.bind_ok.1 h
      cases h2
      obtain ⟨⟨k', h3⟩, h4⟩ := handleCondBr_sound (hw.val hb) c hc x c1 h1
      exact ⟨⟨k', by rw [if_pos ht]; exact ⟨x, h3, rfl⟩⟩, h4⟩
    · rename_i ht; cases h; exact ⟨⟨0, by rw [if_neg ht]⟩, hc⟩

end Phasar.PathConstr
