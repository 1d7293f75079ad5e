import Verif.Alias.CFLAndersBuild
import Verif.Alias.CFLAndersVA

/-! # The CFL-based alias analysis and executions: the invariant -/
namespace Phasar.CFLAnders

/-- The result of an analysis. -/
structure Sol (f : Fn) (R : List Item) (A : Node → Attr) : Prop where
  plain : Plain f
  reach : ∀ x y q, (⟨x, y, q⟩ : Item) ∈ R ↔ Der (buildGraph f) x y q
  attr : AClosed (buildGraph f) R A

variable {f : Fn} {R : List Item} {A : Node → Attr}

/-- Value aliases have the same attributes. -/
theorem Sol.eqA (h : Sol f R A) {x y : Node} {p : Ph} (hv : VA (buildGraph f) x y p) : A x = A y := by
  by_cases he : x = y
  · rw [he]
  · obtain ⟨p', hv'⟩ := hv.symm
    obtain ⟨q, hq⟩ := der_iff_va.2 ⟨he, _, hv⟩
    obtain ⟨q', hq'⟩ := der_iff_va.2 ⟨fun e => he e.symm, _, hv'⟩
    exact Attr.le_antisymm (h.attr.reach _ ((h.reach ..).2 hq')) (h.attr.reach _ ((h.reach ..).2 hq))

/-- The node may hold pointers the function knows nothing about. -/
def Ex (A : Node → Attr) (n : Node) : Prop := (A n).unkCaller = true

theorem ex_le {n m : Node} (h : (A n).le (A m)) (he : Ex A n) : Ex A m := by
  simp only [Ex, Attr.unkCaller, Bool.or_eq_true] at he ⊢
  exact he.imp h.2.1 h.2.2.2.1

theorem ex_any {n : Node} (h : Ex A n) : (A n).any = true := by
  simp only [Ex, Attr.unkCaller, Attr.any, Bool.or_eq_true] at *
  rcases h with h | h <;> simp [h]

theorem Sol.ex (h : Sol f R A) {x y : Node} {p : Ph} (hv : VA (buildGraph f) x y p) (he : Ex A x) : Ex A y := by
  unfold Ex at *; rw [← h.eqA hv]; exact he

theorem Sol.ex' (h : Sol f R A) {x y : Node} {p : Ph} (hv : VA (buildGraph f) x y p) (he : Ex A y) : Ex A x := by
  unfold Ex at *; rw [h.eqA hv]; exact he

theorem Sol.exBelow (h : Sol f R A) {x : Node} (hb : (buildGraph f).has x.below = true) (he : Ex A x) : Ex A x.below :=
  ex_le (h.attr.below x hb) he

theorem Sol.exLog (h : Sol f R A) {n : Node} {a : Attr} (hl : (n, a) ∈ (buildGraph f).log) (ha : a.unkCaller = true) : Ex A n := by
  have := (attrFor_of_mem hl).le_trans (h.attr.init n)
  simp only [Ex, Attr.unkCaller, Bool.or_eq_true] at ha ⊢
  exact ha.imp this.2.1 this.2.2.2.1

/-- The objects of a site are within reach of code outside. -/
def Kx (f : Fn) (A : Node → Attr) (s : Nat) : Prop :=
  (A ⟨s, 0⟩).any = true ∧ (Ex A ⟨s, 0⟩ ∨ ∃ p b, Fl (buildGraph f) ⟨s, 0⟩ ⟨p, 0⟩ b ∧ (buildGraph f).has ⟨p, 1⟩ = true ∧ Ex A ⟨p, 1⟩)

/-- The same for objects. -/
def Pub (f : Fn) (A : Node → Attr) : Obj → Prop
  | .ext _ => True
  | .loc s _ => Kx f A s

/-- What a node may point to. -/
def Pt (f : Fn) (A : Node → Attr) (n : Node) : Obj → Prop
  | .loc s _ => (∃ b, Fl (buildGraph f) ⟨s, 0⟩ n b) ∨ (Ex A n ∧ Kx f A s)
  | .ext _ => Ex A n ∨ ∃ r b, (r ∈ f.args ∨ f.isGlobal r = true) ∧ Fl (buildGraph f) ⟨r, 0⟩ n b

/-- What an object of a site may contain. -/
def Ct (f : Fn) (A : Node → Attr) (s : Nat) (o : Obj) : Prop :=
  (∃ p v b, (⟨v, 0⟩, ⟨p, 1⟩) ∈ (buildGraph f).edges ∧ (buildGraph f).has ⟨p, 1⟩ = true ∧
    Fl (buildGraph f) ⟨s, 0⟩ ⟨p, 0⟩ b ∧ Pt f A ⟨v, 0⟩ o) ∨ (Kx f A s ∧ Pub f A o)

theorem Sol.kxDeref (h : Sol f R A) {s p : Nat} {b : Bool} (hk : Kx f A s) (hp : Fl (buildGraph f) ⟨s, 0⟩ ⟨p, 0⟩ b)
    (hh : (buildGraph f).has ⟨p, 1⟩ = true) : Ex A ⟨p, 1⟩ := by
  rcases hk.2 with h1 | ⟨p', b', h1, h2, h3⟩
  · obtain ⟨q, hq⟩ := hp.va
    exact h.exBelow (x := ⟨p, 0⟩) hh (h.ex hq h1)
  · obtain ⟨q, hq⟩ := h1.alias rfl hp
    exact h.ex (VA.memF (u := ⟨p', 0⟩) (v := ⟨p, 0⟩) (.refl _) hq h2 hh) h3

theorem fl_occ (h : Plain f) {r n : Node} {b : Bool} (hl : Fl (buildGraph f) r n b) : n = r ∨ Occ (buildGraph f) r.val := by
  induction hl with
  | base => exact .inl rfl
  | fwd h1 he ih =>
    rcases ih with rfl | ih
    · exact .inr ((build_ginv h).edge _ _ he).1
    · exact .inr ih
  | mem h1 _ hh _ ih =>
    rcases ih with ih | ih
    · right; rw [← ih]; exact occ_of_has hh
    · exact .inr ih

theorem Sol.rootDeref (h : Sol f R A) {r p : Nat} {b : Bool} (hr : r ∈ f.args ∨ f.isGlobal r = true)
    (hp : Fl (buildGraph f) ⟨r, 0⟩ ⟨p, 0⟩ b) (hh : (buildGraph f).has ⟨p, 1⟩ = true) : Ex A ⟨p, 1⟩ := by
  have key : ∃ a : Attr, (⟨r, 1⟩, a) ∈ (buildGraph f).log ∧ a.unkCaller = true := by
    rcases hr with hr | hr
    · exact ⟨_, (build_arg f hr).2, rfl⟩
    · refine ⟨_, ((build_ginv h.plain).glob r ?_ hr).2, rfl⟩
      rcases fl_occ h.plain hp with he | he
      · cases he; exact occ_of_has hh
      · exact he
  obtain ⟨a, ha, hu⟩ := key
  obtain ⟨q, hq⟩ := hp.va
  exact h.ex (VA.memF (u := ⟨r, 0⟩) (v := ⟨p, 0⟩) (.refl _) hq (has_of_mem ha) hh) (h.exLog ha hu)

theorem Sol.pub (h : Sol f R A) {n : Node} {o : Obj} (he : Ex A n) (hp : Pt f A n o) : Pub f A o := by
  cases o with
  | ext => trivial
  | loc s k =>
    rcases hp with ⟨b, hb⟩ | ⟨_, hk⟩
    · obtain ⟨q, hq⟩ := hb.va
      have := h.ex' hq he
      exact ⟨ex_any this, .inl this⟩
    · exact hk

theorem pt_of_pub {n : Node} {o : Obj} (he : Ex A n) (hp : Pub f A o) : Pt f A n o := by
  cases o with
  | ext => exact .inl he
  | loc s k => exact .inr ⟨he, hp⟩

theorem Sol.flow (h : Sol f R A) {n m : Node} {o : Obj} (he : (n, m) ∈ (buildGraph f).edges) (hp : Pt f A n o) : Pt f A m o := by
  have hv : VA (buildGraph f) n m .to := .fwd (.refl _) he
  cases o with
  | ext =>
    rcases hp with hp | ⟨r, b, hr, hb⟩
    · exact .inl (h.ex hv hp)
    · exact .inr ⟨r, _, hr, .fwd hb he⟩
  | loc s k =>
    rcases hp with ⟨b, hb⟩ | ⟨he', hk⟩
    · exact .inl ⟨_, .fwd hb he⟩
    · exact .inr ⟨h.ex hv he', hk⟩

/-- Through memory. -/
theorem Sol.flowMem (h : Sol f R A) {v u w x : Node} {q : Ph} {o : Obj} (h1 : (v, u.below) ∈ (buildGraph f).edges)
    (hv : VA (buildGraph f) u w q) (hu : (buildGraph f).has u.below = true) (hw : (buildGraph f).has w.below = true)
    (h2 : (w.below, x) ∈ (buildGraph f).edges) (hp : Pt f A v o) : Pt f A x o := by
  have va : VA (buildGraph f) v x .to := .fwd (.memT (.fwd (.refl _) h1) hv hu hw) h2
  cases o with
  | ext =>
    rcases hp with hp | ⟨r, b, hr, hb⟩
    · exact .inl (h.ex va hp)
    · exact .inr ⟨r, _, hr, .fwd (.mem (.fwd hb h1) hv hu hw) h2⟩
  | loc s k =>
    rcases hp with ⟨b, hb⟩ | ⟨he', hk⟩
    · exact .inl ⟨_, .fwd (.mem (.fwd hb h1) hv hu hw) h2⟩
    · exact .inr ⟨h.ex va he', hk⟩

/-- What objects within reach of code outside contain is within its reach. -/
theorem Sol.ctPub (h : Sol f R A) {s : Nat} {o : Obj} (hk : Kx f A s) (hc : Ct f A s o) : Pub f A o := by
  rcases hc with ⟨p, v, b, he, hh, hb, hp⟩ | ⟨_, hp⟩
  · have := h.kxDeref hk hb hh
    exact h.pub (h.ex' (.fwd (.refl _) he) this) hp
  · exact hp

/-- The invariant. -/
structure SOK (f : Fn) (A : Node → Attr) (c : Conf) : Prop where
  reg : ∀ x o, c.reg x = some o → Pt f A ⟨x, 0⟩ o
  loc : ∀ s k o, c.mem (.loc s k) = some o → Ct f A s o
  ext : ∀ n o, c.mem (.ext n) = some o → Pub f A o
  known : ∀ o, c.known o → Pub f A o

theorem Sol.load (h : Sol f R A) {c : Conf} (hc : SOK f A c) {p x : Nat} {o o' : Obj} (hi : Instr.load p x ∈ f.body)
    (hp : c.reg p = some o) (ho : c.mem o = some o') : Pt f A ⟨x, 0⟩ o' := by
  obtain ⟨he, hh⟩ := build_load f hi
  have hpt := hc.reg p o hp
  have exit : Ex A ⟨p, 1⟩ → Ex A ⟨x, 0⟩ := h.ex (.fwd (.refl _) he)
  cases o with
  | ext n =>
    refine pt_of_pub (exit ?_) (hc.ext n o' ho)
    rcases hpt with h1 | ⟨r, b, hr, hb⟩
    · exact h.exBelow (x := ⟨p, 0⟩) hh h1
    · exact h.rootDeref hr hb hh
  | loc s k =>
    have hct := hc.loc s k o' ho
    rcases hpt with ⟨b, hb⟩ | ⟨h1, hk⟩
    · rcases hct with ⟨p', v, b', he', hh', hb', hp'⟩ | ⟨hk, hpub⟩
      · obtain ⟨q, hq⟩ := hb'.alias rfl hb
        exact h.flowMem (u := ⟨p', 0⟩) (w := ⟨p, 0⟩) he' hq hh' hh he hp'
      · exact pt_of_pub (exit (h.kxDeref hk hb hh)) hpub
    · exact pt_of_pub (exit (h.exBelow (x := ⟨p, 0⟩) hh h1)) (h.ctPub hk hct)

theorem SOK.set {c : Conf} (hc : SOK f A c) {x : Nat} {r : Option Obj} (hr : ∀ o, r = some o → Pt f A ⟨x, 0⟩ o) :
    SOK f A (c.set x r) := by
  refine ⟨fun y o hy => ?_, hc.loc, hc.ext, hc.known⟩
  simp only [Conf.set] at hy
  split at hy
  · rename_i hxy; subst hxy; exact hr o hy
  · exact hc.reg y o hy

theorem SOK.setRet {c : Conf} (hc : SOK f A c) {ret : Option Nat} {r : Option Obj}
    (hr : ∀ x, ret = some x → ∀ o, r = some o → Pt f A ⟨x, 0⟩ o) : SOK f A (c.setRet ret r) := by
  cases ret with
  | none => exact hc
  | some x => exact hc.set (hr x rfl)

theorem Sol.store (h : Sol f R A) {c : Conf} (hc : SOK f A c) {v p : Nat} {o : Obj} (hi : Instr.store v p ∈ f.body)
    (hp : c.reg p = some o) : SOK f A (c.write o (c.reg v)) := by
  obtain ⟨he, hh⟩ := build_store f hi
  have hpt := hc.reg p o hp
  have enter : Ex A ⟨p, 1⟩ → Ex A ⟨v, 0⟩ := h.ex' (.fwd (.refl _) he)
  refine ⟨hc.reg, fun s k o' ho' => ?_, fun n o' ho' => ?_, hc.known⟩
  · simp only [Conf.write] at ho'
    split at ho'
    · rename_i heq; subst heq
      have hv := hc.reg v o' ho'
      rcases hpt with ⟨b, hb⟩ | ⟨h1, hk⟩
      · exact .inl ⟨p, v, b, he, hh, hb, hv⟩
      · exact .inr ⟨hk, h.pub (enter (h.exBelow (x := ⟨p, 0⟩) hh h1)) hv⟩
    · exact hc.loc s k o' ho'
  · simp only [Conf.write] at ho'
    split at ho'
    · rename_i heq; subst heq
      have hv := hc.reg v o' ho'
      refine h.pub (enter ?_) hv
      rcases hpt with h1 | ⟨r, b, hr, hb⟩
      · exact h.exBelow (x := ⟨p, 0⟩) hh h1
      · exact h.rootDeref hr hb hh
    · exact hc.ext n o' ho'

theorem Sol.clo (h : Sol f R A) {c : Conf} (hc : SOK f A c) {K : Obj → Prop} (hK : ∀ o, K o → Pub f A o) {o : Obj}
    (ho : Clo c.mem K o) : Pub f A o := by
  induction ho with
  | base hk => exact hK _ hk
  | ext n => trivial
  | @step o o' _ hm ih =>
    cases o with
    | ext n => exact hc.ext n _ hm
    | loc s k => exact h.ctPub ih (hc.loc s k _ hm)

theorem Sol.passed (h : Sol f R A) {c : Conf} (hc : SOK f A c) {args : List Nat}
    (hargs : ∀ v ∈ args, (⟨v, 0⟩, { esc := true }) ∈ (buildGraph f).log ∧ (⟨v, 1⟩, { unk := true }) ∈ (buildGraph f).log)
    {o : Obj} (ho : c.passed args o) : Pub f A o := by
  refine h.clo hc (fun o hk => ?_) ho
  rcases hk with hk | ⟨v, hv, hr⟩
  · exact hc.known o hk
  · obtain ⟨h1, h2⟩ := hargs v hv
    have hpt := hc.reg v o hr
    cases o with
    | ext => trivial
    | loc s k =>
      rcases hpt with ⟨b, hb⟩ | ⟨_, hk⟩
      · obtain ⟨q, hq⟩ := hb.va
        refine ⟨?_, .inr ⟨v, b, hb, has_of_mem h2, h.exLog h2 rfl⟩⟩
        rw [h.eqA hq]
        have := ((attrFor_of_mem h1).le_trans (h.attr.init _)).1 rfl
        simp [Attr.any, this]
      · exact hk

theorem Sol.step (h : Sol f R A) {c c' : Conf} {i : Instr} (hi : i ∈ f.body) (hs : Step c i c') (hc : SOK f A c) :
    SOK f A c' := by
  cases hs with
  | alloca x k => exact hc.set fun o ho => by cases ho; exact .inl ⟨_, .base⟩
  | malloc x k => exact hc.set fun o ho => by cases ho; exact .inl ⟨_, .base⟩
  | mallocNull x => exact hc.set fun o ho => nomatch ho
  | @assign froms x y hy =>
    refine hc.set fun o ho => ?_
    by_cases hxy : x = y
    · subst hxy; exact hc.reg x o ho
    · exact h.flow (build_assign f hi hy hxy) (hc.reg y o ho)
  | load hp => exact hc.set fun o ho => h.load hc hi hp ho
  | store hp => exact h.store hc hi hp
  | ptrToInt p => exact absurd hi (h.plain.ptrToInt p)
  | intToPtr hr =>
    exact hc.set fun o ho => pt_of_pub (h.exLog (build_intToPtr f h.plain hi) rfl) (hc.known o (hr o ho))
  | @call args ret r m hm hr =>
    obtain ⟨h1, h2⟩ := build_call f hi
    have hp : ∀ o, c.passed args o → Pub f A o := fun o => h.passed hc (h1 rfl)
    have hc' : SOK f A (Conf.mk c.reg m (c.passed args)) := by
      refine ⟨hc.reg, fun s k o ho => ?_, fun n o ho => ?_, hp⟩
      · rcases hm (.loc s k) with h3 | ⟨h3, h4⟩
        · exact hc.loc s k o (h3 ▸ ho)
        · exact .inr ⟨hp _ h3, hp _ (h4 o ho)⟩
      · rcases hm (.ext n) with h3 | ⟨h3, h4⟩
        · exact hc.ext n o (h3 ▸ ho)
        · exact hp _ (h4 o ho)
    exact hc'.setRet fun x hx o ho => pt_of_pub (h.exLog (h2 rfl x hx) rfl) (hp o (hr o ho))
  | @callRO args ret r hr =>
    obtain ⟨h1, h2⟩ := build_call f hi
    refine hc.setRet fun x hx o ho => ?_
    rcases (h.plain.call _ _ _ _ hi).2 rfl with rfl | rfl
    · exact pt_of_pub (h.exLog (h2 rfl x hx) rfl) (h.passed hc (fun v hv => (List.not_mem_nil hv).elim) (hr o ho))
    · cases hx
  | callNA => exact absurd (h.plain.call _ _ _ _ hi).1 (by simp)
  | cmpXchgNo => exact absurd hi (h.plain.cmpXchg _ _ _)
  | cmpXchgYes => exact absurd hi (h.plain.cmpXchg _ _ _)
  | ret v => exact hc

theorem Sol.init (h : Sol f R A) {c : Conf} (hc : Init f c) : SOK f A c := by
  refine ⟨fun x o hx => ?_, fun s k o ho => ?_, fun n o ho => ?_, fun o ho => ?_⟩
  · obtain ⟨⟨n, rfl⟩, hr⟩ := hc.reg x o hx
    rcases hr with hr | hr | hr
    · exact .inr ⟨x, _, .inl hr, .base⟩
    · exact .inr ⟨x, _, .inr hr, .base⟩
    · rw [h.plain.intExpr] at hr; cases hr
  · obtain ⟨⟨n, hn⟩, _⟩ := hc.mem _ _ ho; cases hn
  · obtain ⟨_, n', rfl⟩ := hc.mem _ _ ho; trivial
  · obtain ⟨n, rfl⟩ := hc.known o ho; trivial

theorem Sol.run (h : Sol f R A) {c : Conf} (hc : Run f c) : SOK f A c := by
  induction hc with
  | init hi => exact h.init hi
  | step _ hi hs ih => exact h.step hi hs ih

/-! ## The answer -/

theorem globalArg_any {a : Attr} (h : a.globalArg = true) : a.any = true := by
  simp only [Attr.globalArg, Attr.any, Bool.or_eq_true] at *
  rcases h with h | h <;> simp [h]

theorem Sol.rootAttr (h : Sol f R A) {r : Nat} {n : Node} {b : Bool} (hr : r ∈ f.args ∨ f.isGlobal r = true)
    (hb : Fl (buildGraph f) ⟨r, 0⟩ n b) (ho : Occ (buildGraph f) n.val) : (A n).globalArg = true := by
  obtain ⟨q, hq⟩ := hb.va
  rw [← h.eqA hq]
  rcases hr with hr | hr
  · have := ((attrFor_of_mem (build_arg f hr).1).le_trans (h.attr.init _)).2.2.2.2 rfl
    simp [Attr.globalArg, this]
  · have hocc : Occ (buildGraph f) r := by
      rcases fl_occ h.plain hb with he | he
      · rw [he] at ho; exact ho
      · exact he
    have := ((attrFor_of_mem ((build_ginv h.plain).glob r hocc hr).1).le_trans (h.attr.init _)).2.2.1 rfl
    simp [Attr.globalArg, this]

theorem Sol.mayAlias (h : Sol f R A) {x y : Nat} (hne : x ≠ y) {o : Obj} (hx : Pt f A ⟨x, 0⟩ o) (hy : Pt f A ⟨y, 0⟩ o) :
    Info.mayAlias ⟨buildGraph f, R, A⟩ x y = true := by
  unfold Info.mayAlias Info.attrs
  dsimp only
  by_cases hlx : 0 < (buildGraph f).levels x
  case neg => rw [if_neg hlx]
  by_cases hly : 0 < (buildGraph f).levels y
  case neg => rw [if_neg hly]; split <;> simp_all
  rw [if_pos hlx, if_pos hly]
  dsimp only
  have hox : Occ (buildGraph f) x := occ_of_has (n := ⟨x, 0⟩) (decide_eq_true hlx)
  have hoy : Occ (buildGraph f) y := occ_of_has (n := ⟨y, 0⟩) (decide_eq_true hly)
  have fin : (Ex A ⟨x, 0⟩ ∧ (A ⟨y, 0⟩).any = true) ∨ (Ex A ⟨y, 0⟩ ∧ (A ⟨x, 0⟩).any = true) ∨
      ((A ⟨x, 0⟩).globalArg = true ∧ (A ⟨y, 0⟩).globalArg = true) ∨
      (A ⟨x, 0⟩ = A ⟨y, 0⟩ ∧ R.any (fun j => j.dst = ⟨x, 0⟩ && j.src = ⟨y, 0⟩) = true) := by
    cases o with
    | ext n =>
      have gx : Ex A ⟨x, 0⟩ ∨ (A ⟨x, 0⟩).globalArg = true := by
        rcases hx with h1 | ⟨r, b, hr, hb⟩
        · exact .inl h1
        · exact .inr (h.rootAttr hr hb hox)
      have gy : Ex A ⟨y, 0⟩ ∨ (A ⟨y, 0⟩).globalArg = true := by
        rcases hy with h1 | ⟨r, b, hr, hb⟩
        · exact .inl h1
        · exact .inr (h.rootAttr hr hb hoy)
      rcases gx with gx | gx
      · exact .inl ⟨gx, gy.elim ex_any globalArg_any⟩
      · rcases gy with gy | gy
        · exact .inr (.inl ⟨gy, globalArg_any gx⟩)
        · exact .inr (.inr (.inl ⟨gx, gy⟩))
    | loc s k =>
      rcases hx with ⟨b, hb⟩ | ⟨hx, hk⟩
      · rcases hy with ⟨b', hb'⟩ | ⟨hy, hk⟩
        · obtain ⟨q, hq⟩ := hb'.alias rfl hb
          obtain ⟨p, hp⟩ := der_iff_va.2 ⟨fun e => hne (congrArg Node.val e).symm, _, hq⟩
          refine .inr (.inr (.inr ⟨(h.eqA hq).symm, ?_⟩))
          rw [List.any_eq_true]
          exact ⟨_, (h.reach ..).2 hp, by simp⟩
        · obtain ⟨q, hq⟩ := hb.va
          exact .inr (.inl ⟨hy, h.eqA hq ▸ hk.1⟩)
      · rcases hy with ⟨b', hb'⟩ | ⟨hy, _⟩
        · obtain ⟨q, hq⟩ := hb'.va
          exact .inl ⟨hx, h.eqA hq ▸ hk.1⟩
        · exact .inl ⟨hx, ex_any hy⟩
  unfold Ex at fin
  have any_of : ∀ a : Attr, a.unkCaller = true → a.any = true := fun a ha => by
    simp only [Attr.unkCaller, Attr.any, Bool.or_eq_true] at *
    rcases ha with h | h <;> simp [h]
  split
  · rcases fin with h1 | h1 | h1 | h1
    · exact h1.2
    · exact any_of _ h1.1
    · exact globalArg_any h1.2
    · rw [← h1.1]; exact any_of _ (by assumption)
  split
  · rcases fin with h1 | h1 | h1 | h1
    · exact any_of _ h1.1
    · exact h1.2
    · exact globalArg_any h1.1
    · rw [h1.1]; exact any_of _ (by assumption)
  split
  · rcases fin with h1 | h1 | h1 | h1
    · exact absurd h1.1 (by assumption)
    · exact absurd h1.1 (by assumption)
    · exact h1.2
    · rw [← h1.1]; assumption
  split
  · rcases fin with h1 | h1 | h1 | h1
    · exact absurd h1.1 (by assumption)
    · exact absurd h1.1 (by assumption)
    · exact h1.1
    · rw [h1.1]; assumption
  · rcases fin with h1 | h1 | h1 | h1
    · exact absurd h1.1 (by assumption)
    · exact absurd h1.1 (by assumption)
    · exact absurd h1.1 (by assumption)
    · exact h1.2

end Phasar.CFLAnders
