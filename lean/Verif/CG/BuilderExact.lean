import Verif.CG.BuilderRun
/-!
# What call-graph construction computes
-/
set_option linter.unusedSectionVars false
namespace Phasar.CG

variable {N F I σ : Type} [DecidableEq N] [DecidableEq F]

/-- A set of edges that contains the edges of all calls in functions reachable by it. -/
def Closed (m : Mod N F I) (entries : List F) (A : (N → F → Prop) → N → F → Prop) (E : N → F → Prop) : Prop :=
  ∀ c g, Edges m entries (A E) c g → E c g

/-- The edges of a call that was looked at are there, as far as they were known when it was last looked at. -/
def Covered (m : Mod N F I) (A : (N → F → Prop) → N → F → Prop) (s : St N F σ) (E : List (N × F)) (c : N) : Prop :=
  (∀ f, m.callee c = .direct f → (c, f) ∈ E) ∧
  (m.callee c = .dynamic → ∃ n, getInd c s.ind = some n ∧ ∃ (l : List F) (K : N → F → Prop), l.Nodup ∧ l.length = n ∧
    (∀ c' g, K c' g → (c', g) ∈ E) ∧ (∀ g, g ∈ l ↔ A K c g) ∧ ∀ g ∈ l, (c, g) ∈ E)

structure J (m : Mod N F I) (A : (N → F → Prop) → N → F → Prop) (know : σ → N → F → Prop) (entries : List F)
    (s : St N F σ) (sp : Spec N F) (D : List N) : Prop where
  kn : ∀ c g, know s.res c g ↔ (c, g) ∈ sp.edges
  cov : ∀ c ∈ D, Covered m A s sp.edges c
  tgt : ∀ c g, (c, g) ∈ sp.edges → g ∈ s.wl ∨ g ∈ s.visited ∨ m.body g = none
  ent : ∀ f ∈ entries, f ∈ s.wl ∨ f ∈ s.visited ∨ m.body f = none
  least : ∀ E, Closed m entries A E → (∀ c g, (c, g) ∈ sp.edges → E c g) ∧
    ∀ f, f ∈ s.wl ∨ f ∈ s.visited → Reach m entries (A E) f
  keys : ∀ c n, getInd c s.ind = some n → m.callee c = .dynamic ∧ ∃ f ∈ s.visited, CallIn m f c

theorem Covered.mono {m : Mod N F I} {A : (N → F → Prop) → N → F → Prop} {s s' : St N F σ} {E E' : List (N × F)} {c : N}
    (h : Covered m A s E c) (hi : getInd c s'.ind = getInd c s.ind) (hE : ∀ p ∈ E, p ∈ E') : Covered m A s' E' c := by
  refine ⟨fun f hf => hE _ (h.1 f hf), fun hd => ?_⟩
  obtain ⟨n, h1, l, K, h2, h3, h4, h5, h6⟩ := h.2 hd
  exact ⟨n, hi.trans h1, l, K, h2, h3, fun c' g hk => hE _ (h4 c' g hk), h5, fun g hg => hE _ (h6 g hg)⟩

theorem mem_new {E : List (N × F)} {c : N} {ts : List F} {c' : N} {g : F} :
    (c', g) ∈ E ++ ts.map (fun t => (c, t)) ↔ (c', g) ∈ E ∨ (c' = c ∧ g ∈ ts) := by
  simp only [List.mem_append, List.mem_map, Prod.mk.injEq]
  constructor
  · rintro (h | ⟨t, h1, h2, h3⟩)
    · exact Or.inl h
    · exact Or.inr ⟨h2.symm, h3 ▸ h1⟩
  · rintro (h | ⟨h1, h2⟩)
    · exact Or.inl h
    · exact Or.inr ⟨g, h2, h1.symm, rfl⟩

section
variable {m : Mod N F I} {R : Resolver σ N F I} {A : (N → F → Prop) → N → F → Prop} {know : σ → N → F → Prop} {entries fs : List F}

/-- Adding targets that all closed sets of edges have. -/
theorem J.add {s s' : St N F σ} {sp sp' : Spec N F} {D : List N} (hJ : J m A know entries s sp D) {c : N} {ts : List F}
    (hE : sp'.edges = sp.edges ++ ts.map (fun t => (c, t))) (hwl : s'.wl = ts.reverse ++ s.wl) (hv : s'.visited = s.visited)
    (hc : ∃ f ∈ s.visited, CallIn m f c)
    (hT : ∀ E, Closed m entries A E → ∀ t ∈ ts, Targets m (A E) c t) :
    (∀ c g, (c, g) ∈ sp'.edges → g ∈ s'.wl ∨ g ∈ s'.visited ∨ m.body g = none) ∧
    (∀ f ∈ entries, f ∈ s'.wl ∨ f ∈ s'.visited ∨ m.body f = none) ∧
    (∀ E, Closed m entries A E → (∀ c g, (c, g) ∈ sp'.edges → E c g) ∧
      ∀ f, f ∈ s'.wl ∨ f ∈ s'.visited → Reach m entries (A E) f) := by
  refine ⟨?_, ?_, ?_⟩
  · intro c' g h
    rw [hE] at h
    rw [hwl, hv]
    rcases mem_new.1 h with h1 | ⟨_, h2⟩
    · rcases hJ.tgt c' g h1 with h | h
      · left; simp [h]
      · exact Or.inr h
    · left; simp [h2]
  · intro f hf
    rw [hwl, hv]
    rcases hJ.ent f hf with h | h
    · left; simp [h]
    · exact Or.inr h
  · intro E hcl
    obtain ⟨l1, l2⟩ := hJ.least E hcl
    obtain ⟨f0, f1, f2⟩ := hc
    have hr := l2 f0 (Or.inr f1)
    refine ⟨?_, ?_⟩
    · intro c' g h
      rw [hE] at h
      rcases mem_new.1 h with h1 | ⟨h2, h3⟩
      · exact l1 c' g h1
      · rw [h2]; exact hcl c g ⟨f0, hr, f2, hT E hcl g h3⟩
    · intro f hf
      rw [hwl, hv] at hf
      rcases hf with hf | hf
      · rcases List.mem_append.1 hf with h | h
        · exact Reach.call hr f2 (hT E hcl f (List.mem_reverse.1 h))
        · exact l2 f (Or.inl h)
      · exact l2 f (Or.inr hf)

theorem J.kn_eq {s : St N F σ} {sp : Spec N F} {D : List N} (hJ : J m A know entries s sp D) :
    know s.res = fun c g => (c, g) ∈ sp.edges := by
  funext c g; exact propext (hJ.kn c g)

theorem J_pres (hA : Answers R A know) : Pres m R fs (J m A know entries) := by
  refine ⟨?_, ?_, ?_, ?_, ?_, ?_⟩
  · intro s sp D i h
    refine ⟨fun c g => ?_, fun c hc => (h.cov c hc).mono rfl (fun _ hp => hp), h.tgt, h.ent, h.least, h.keys⟩
    show know (R.other s.res i) c g ↔ _
    rw [hA.other]; exact h.kn c g
  · intro s sp D f w h hw hf
    have hsk : ∀ g, g ∈ s.wl ∨ g ∈ s.visited ∨ m.body g = none → g ∈ w ∨ g ∈ s.visited ∨ m.body g = none := by
      intro g hg
      rcases hg with hg | hg
      · rw [hw] at hg
        rcases List.mem_cons.1 hg with h1 | h1
        · rw [h1]
          rcases hf with hf | hf
          · exact Or.inr (Or.inr hf)
          · exact Or.inr (Or.inl hf)
        · exact Or.inl h1
      · exact Or.inr hg
    refine ⟨h.kn, fun c hc => (h.cov c hc).mono rfl (fun _ hp => hp), fun c g hg => hsk g (h.tgt c g hg),
      fun g hg => hsk g (h.ent g hg), fun E hE => ⟨(h.least E hE).1, fun g hg => (h.least E hE).2 g ?_⟩, h.keys⟩
    rcases hg with hg | hg
    · left; rw [hw]; simp [show g ∈ w from hg]
    · exact Or.inr hg
  · intro s sp D f w h hw hf hv
    have hsk : ∀ g, g ∈ s.wl ∨ g ∈ s.visited ∨ m.body g = none → g ∈ w ∨ g ∈ f :: s.visited ∨ m.body g = none := by
      intro g hg
      rcases hg with hg | hg | hg
      · rw [hw] at hg
        rcases List.mem_cons.1 hg with h1 | h1
        · exact Or.inr (Or.inl (by simp [h1]))
        · exact Or.inl h1
      · exact Or.inr (Or.inl (by simp [hg]))
      · exact Or.inr (Or.inr hg)
    refine ⟨h.kn, fun c hc => (h.cov c hc).mono rfl (fun _ hp => hp), fun c g hg => hsk g (h.tgt c g hg),
      fun g hg => hsk g (h.ent g hg), fun E hE => ⟨(h.least E hE).1, fun g hg => (h.least E hE).2 g ?_⟩, ?_⟩
    · rcases hg with hg | hg
      · left; rw [hw]; simp [show g ∈ w from hg]
      · rcases List.mem_cons.1 hg with h1 | h1
        · left; rw [hw, h1]; simp
        · exact Or.inr h1
    · intro c n hc
      obtain ⟨k1, f', k2, k3⟩ := h.keys c n hc
      exact ⟨k1, f', by simp [k2], k3⟩
  · intro s sp D c s' sp' h hc _ hE hwl hv hind hres
    have hT : ∀ E, Closed m entries A E → ∀ t ∈ (fill m R c s).1, Targets m (A E) c t := by
      intro E hcl t ht
      unfold fill at ht
      cases hcal : m.callee c with
      | direct f => rw [hcal] at ht; simp only [List.mem_singleton] at ht; left; rw [ht]; exact hcal
      | asm => rw [hcal] at ht; simp at ht
      | dynamic =>
        rw [hcal] at ht
        simp only at ht
        right
        refine ⟨hcal, hA.mono (know s.res) E ?_ c t ((hA.ans s.res c t).1 ht)⟩
        intro c' g hk
        exact (h.least E hcl).1 c' g ((h.kn c' g).1 hk)
    obtain ⟨t1, t2, t3⟩ := h.add hE hwl hv hc hT
    have hkn : know (fill m R c s).2.2.res = know s.res := by
      unfold fill
      cases hcal : m.callee c with
      | direct f => rfl
      | asm => rfl
      | dynamic => exact hA.ask s.res c
    have hmono : ∀ p ∈ sp.edges, p ∈ sp'.edges := fun p hp => by rw [hE]; simp [hp]
    refine ⟨?_, ?_, t1, t2, t3, ?_⟩
    · intro c' g
      rw [hres, hA.tell, hkn, hE, mem_new, ← h.kn]
    · have hnew : Covered m A s' sp'.edges c := by
        refine ⟨fun f hf => ?_, fun hd => ?_⟩
        · rw [hE, mem_new]; right
          refine ⟨rfl, ?_⟩
          unfold fill; rw [hf]; simp
        · have hf1 : (fill m R c s).1 = (R.resolve s.res c).1 := by unfold fill; rw [hd]
          refine ⟨(R.resolve s.res c).1.length, ?_, (R.resolve s.res c).1, know s.res, hA.nodup _ _, rfl, ?_, hA.ans _ _, ?_⟩
          · rw [hind]; unfold fill; rw [hd]; simp [getInd_setInd]
          · intro c' g hk; exact hmono _ ((h.kn c' g).1 hk)
          · intro g hg; rw [hE, mem_new, hf1]; exact Or.inr ⟨rfl, hg⟩
      intro c' hc'
      by_cases he : c' = c
      · rw [he]; exact hnew
      · rcases List.mem_cons.1 hc' with h1 | h1
        · exact absurd h1 he
        · refine (h.cov c' h1).mono ?_ hmono
          rw [hind]; unfold fill
          cases m.callee c with
          | direct f => rfl
          | asm => rfl
          | dynamic => simp only [getInd_setInd]; rw [if_neg (fun h' => he h'.symm)]
    · intro c' n hn
      rw [hind] at hn
      unfold fill at hn
      rw [hv]
      cases hcal : m.callee c with
      | direct f => rw [hcal] at hn; exact h.keys c' n hn
      | asm => rw [hcal] at hn; exact h.keys c' n hn
      | dynamic =>
        rw [hcal] at hn
        simp only [getInd_setInd] at hn
        by_cases he : c = c'
        · rw [← he]; exact ⟨hcal, hc⟩
        · rw [if_neg he] at hn; exact h.keys c' n hn
  · intro s sp D c n h _ _
    refine ⟨fun c' g => ?_, fun c' hc => (h.cov c' hc).mono rfl (fun _ hp => hp), h.tgt, h.ent, h.least, h.keys⟩
    show know (R.resolve s.res c).2 c' g ↔ _
    rw [hA.ask]; exact h.kn c' g
  · intro s sp D c n s' sp' ts h hn hlt hts hE hwl hv hind hres
    obtain ⟨hd, hc⟩ := h.keys c n hn
    have hT : ∀ E, Closed m entries A E → ∀ t ∈ ts, Targets m (A E) c t := by
      intro E hcl t ht
      rw [hts] at ht
      right
      refine ⟨hd, hA.mono (know s.res) E ?_ c t ((hA.ans s.res c t).1 (List.mem_filter.1 ht).1)⟩
      intro c' g hk
      exact (h.least E hcl).1 c' g ((h.kn c' g).1 hk)
    obtain ⟨t1, t2, t3⟩ := h.add hE hwl hv hc hT
    have hmono : ∀ p ∈ sp.edges, p ∈ sp'.edges := fun p hp => by rw [hE]; simp [hp]
    refine ⟨?_, ?_, t1, t2, t3, ?_⟩
    · intro c' g
      rw [hres, hA.tell, hA.ask, hE, mem_new, ← h.kn]
    · intro c' hc'
      by_cases he : c' = c
      · subst he
        refine ⟨fun f hf => (by rw [hd] at hf; cases hf), fun _ => ?_⟩
        refine ⟨(R.resolve s.res c').1.length, by rw [hind]; simp [getInd_setInd], (R.resolve s.res c').1, know s.res, hA.nodup _ _,
          rfl, fun c'' g hk => hmono _ ((h.kn c'' g).1 hk), hA.ans _ _, ?_⟩
        intro g hg
        by_cases ho : g ∈ calleesIn sp.edges c'
        · exact hmono _ ((mem_calleesIn _ _ _).1 ho)
        · rw [hE, mem_new]; right
          refine ⟨rfl, ?_⟩
          rw [hts]; exact List.mem_filter.2 ⟨hg, by simp [ho]⟩
      · refine (h.cov c' hc').mono ?_ hmono
        rw [hind, getInd_setInd, if_neg (fun h' => he h'.symm)]
    · intro c' k hk
      rw [hv]
      rw [hind, getInd_setInd] at hk
      by_cases he : c = c'
      · rw [← he]; exact ⟨hd, hc⟩
      · rw [if_neg he] at hk; exact h.keys c' k hk

theorem J_init (r : σ) (hr : ∀ c g, ¬ know r c g) :
    J m A know entries (init m entries r) ⟨[], [], []⟩ [] := by
  refine ⟨fun c g => ?_, by simp, by simp, fun f hf => ?_, fun E hE => ⟨by simp, fun f hf => ?_⟩, ?_⟩
  · simp [init, hr c g]
  · left; simp [init, hf]
  · simp only [init, List.mem_reverse, List.not_mem_nil, or_false] at hf
    exact Reach.entry hf
  · intro c n h; simp [init, getInd] at h

theorem Reach.mono {T T' : N → F → Prop} (hT : ∀ c g, T c g → T' c g) {f : F} (h : Reach m entries T f) :
    Reach m entries T' f := by
  induction h with
  | entry h => exact .entry h
  | call _ hc hg ih =>
    refine .call ih hc ?_
    rcases hg with h | ⟨h1, h2⟩
    · exact Or.inl h
    · exact Or.inr ⟨h1, hT _ _ h2⟩

theorem Edges.mono {T T' : N → F → Prop} (hT : ∀ c g, T c g → T' c g) {c : N} {g : F} (h : Edges m entries T c g) :
    Edges m entries T' c g := by
  obtain ⟨f, h1, h2, h3⟩ := h
  refine ⟨f, h1.mono hT, h2, ?_⟩
  rcases h3 with h | ⟨h1, h2⟩
  · exact Or.inl h
  · exact Or.inr ⟨h1, hT _ _ h2⟩

/-- At the end the edges are the least closed set of edges. -/
theorem End.exact (hA : Answers R A know) {req : Bool}
    (hreq : req = true ∨ ∀ K K' c g, A K c g → A K' c g) {s : St N F σ} {sp : Spec N F} {D : List N}
    (h : End m R fs (J m A know entries) req s sp D) :
    (∀ c g, (c, g) ∈ sp.edges ↔ Edges m entries (A fun c g => (c, g) ∈ sp.edges) c g) ∧
    (∀ E, Closed m entries A E → ∀ c g, (c, g) ∈ sp.edges → E c g) ∧
    ∀ f, f ∈ s.visited ↔ Reach m entries (A fun c g => (c, g) ∈ sp.edges) f ∧ m.body f ≠ none := by
  have hJ := h.full.q
  have hcall : ∀ f c g, f ∈ s.visited ∨ m.body f = none → CallIn m f c → Targets m (A fun c g => (c, g) ∈ sp.edges) c g →
      (c, g) ∈ sp.edges := by
    intro f c g hf hc hg
    have hfv : f ∈ s.visited := by
      rcases hf with h1 | h1
      · exact h1
      · obtain ⟨is, h2, _⟩ := hc
        rw [h1] at h2; cases h2
    have hcov := hJ.cov c (h.full.done f hfv c hc)
    rcases hg with hg | ⟨hd, hg⟩
    · exact hcov.1 g hg
    · obtain ⟨n, e1, l, K, e2, e3, e4, e5, e6⟩ := hcov.2 hd
      rcases hreq with hreq | hreq
      · obtain ⟨r, r1, r2⟩ := h.stable hreq c n e1
        have hk : know r = fun c g => (c, g) ∈ sp.edges := r1.kn_eq
        have hgm : g ∈ (R.resolve r c).1 := (hA.ans r c g).2 (by rw [hk]; exact hg)
        refine e6 g (nodup_mem e2 ?_ (by rw [e3]; exact r2) g hgm)
        intro x hx
        exact (hA.ans r c x).2 (by rw [hk]; exact hA.mono K _ e4 c x ((e5 x).1 hx))
      · exact e6 g ((e5 g).2 (hreq _ K c g hg))
  have hvis : ∀ f, Reach m entries (A fun c g => (c, g) ∈ sp.edges) f → f ∈ s.visited ∨ m.body f = none := by
    intro f hf
    induction hf with
    | entry he =>
      rcases hJ.ent _ he with h1 | h1
      · rw [h.wl] at h1; simp at h1
      · exact h1
    | call _ hc hg ih =>
      rcases hJ.tgt _ _ (hcall _ _ _ ih hc hg) with h1 | h1
      · rw [h.wl] at h1; simp at h1
      · exact h1
  have hclosed : Closed m entries A (fun c g => (c, g) ∈ sp.edges) := by
    rintro c g ⟨f, h1, h2, h3⟩
    exact hcall f c g (hvis f h1) h2 h3
  have hleast : ∀ E, Closed m entries A E → ∀ c g, (c, g) ∈ sp.edges → E c g := fun E hE => (hJ.least E hE).1
  refine ⟨fun c g => ⟨fun hcg => ?_, hclosed c g⟩, hleast, fun f => ⟨fun hf => ⟨(hJ.least _ hclosed).2 f (Or.inr hf), h.full.base.visB f hf⟩,
    fun hf => (hvis f hf.1).resolve_right hf.2⟩⟩
  refine hleast (fun c g => Edges m entries (A fun c g => (c, g) ∈ sp.edges) c g) ?_ c g hcg
  intro c' g' h'
  exact Edges.mono (hA.mono _ _ hclosed) h'

/-! ## Each callee is listed once -/

structure U (m : Mod N F I) (R : Resolver σ N F I) (s : St N F σ) (sp : Spec N F) (D : List N) : Prop where
  nodup : Uniq m → ∀ c, (calleesIn sp.edges c).Nodup
  from' : ∀ c g, (c, g) ∈ sp.edges → c ∈ D
  keys : ∀ c n, getInd c s.ind = some n → c ∈ D

theorem calleesIn_app (E : List (N × F)) (c c' : N) (ts : List F) :
    calleesIn (E ++ ts.map (fun t => (c, t))) c' = if c = c' then calleesIn E c' ++ ts else calleesIn E c' := by
  induction ts generalizing E with
  | nil => simp
  | cons t ts ih =>
    have : E ++ (t :: ts).map (fun t => (c, t)) = (E ++ [(c, t)]) ++ ts.map (fun t => (c, t)) := by simp
    rw [this, ih, calleesIn_snoc]
    by_cases h : c = c'
    · simp [h]
    · simp [h]

theorem U_pres (hn : ∀ s c, (R.resolve s c).1.Nodup) : Pres m R fs (U m R) := by
  refine ⟨?_, ?_, ?_, ?_, ?_, ?_⟩
  · intro s sp D i h; exact ⟨h.nodup, h.from', h.keys⟩
  · intro s sp D f w h _ _; exact ⟨h.nodup, h.from', h.keys⟩
  · intro s sp D f w h _ _ _; exact ⟨h.nodup, h.from', h.keys⟩
  · intro s sp D c s' sp' h _ hc hE _ _ hind _
    refine ⟨fun hu c' => ?_, fun c' g hg => ?_, fun c' n hk => ?_⟩
    · rw [hE, calleesIn_app]
      by_cases he : c = c'
      · rw [if_pos he, ← he]
        have h0 : calleesIn sp.edges c = [] := by
          apply List.eq_nil_iff_forall_not_mem.2
          intro g hg
          exact hc hu (h.from' c g ((mem_calleesIn _ _ _).1 hg))
        rw [h0, List.nil_append]
        unfold fill
        cases m.callee c with
        | direct f => simp
        | asm => simp
        | dynamic => exact hn s.res c
      · rw [if_neg he]; exact h.nodup hu c'
    · rw [hE, mem_new] at hg
      rcases hg with hg | ⟨hg, _⟩
      · simp [h.from' c' g hg]
      · simp [hg]
    · rw [hind] at hk
      unfold fill at hk
      cases hcal : m.callee c with
      | direct f => rw [hcal] at hk; simp [h.keys c' n hk]
      | asm => rw [hcal] at hk; simp [h.keys c' n hk]
      | dynamic =>
        rw [hcal] at hk
        simp only [getInd_setInd] at hk
        by_cases he : c = c'
        · simp [he]
        · rw [if_neg he] at hk; simp [h.keys c' n hk]
  · intro s sp D c n h _ _; exact ⟨h.nodup, h.from', h.keys⟩
  · intro s sp D c n s' sp' ts h hk _ hts hE _ _ hind _
    have hcD := h.keys c n hk
    refine ⟨fun hu c' => ?_, fun c' g hg => ?_, fun c' k hk' => ?_⟩
    · rw [hE, calleesIn_app]
      by_cases he : c = c'
      · rw [if_pos he, ← he, List.nodup_append]
        refine ⟨h.nodup hu c, by rw [hts]; exact (hn s.res c).filter _, ?_⟩
        intro a ha b hb hab
        rw [hts] at hb
        have := (List.mem_filter.1 hb).2
        simp only [decide_eq_true_eq] at this
        exact this (hab ▸ ha)
      · rw [if_neg he]; exact h.nodup hu c'
    · rw [hE, mem_new] at hg
      rcases hg with hg | ⟨hg, _⟩
      · exact h.from' c' g hg
      · rw [hg]; exact hcD
    · rw [hind, getInd_setInd] at hk'
      by_cases he : c = c'
      · rw [← he]; exact hcD
      · rw [if_neg he] at hk'; exact h.keys c' k hk'

theorem U_init (r : σ) : U m R (init m entries r) ⟨[], [], []⟩ [] := by
  refine ⟨fun _ c => by simp [calleesIn], by simp, ?_⟩
  intro c n h; simp [init, getInd] at h

end

end Phasar.CG
