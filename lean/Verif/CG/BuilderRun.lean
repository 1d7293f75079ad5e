import Verif.CG.BuilderLemmas
/-!
# Call-graph construction terminates and preserves invariants
-/
set_option linter.unusedSectionVars false
namespace Phasar.CG

variable {N F I σ : Type} [DecidableEq N] [DecidableEq F]

/-- Every call site occurs once in the module. -/
def Uniq (m : Mod N F I) : Prop :=
  (∀ f f' c, CallIn m f c → CallIn m f' c → f = f') ∧
  ∀ f pre suf c, m.body f = some (pre ++ Ins.call c :: suf) → Ins.call c ∉ pre

/-- `Q s sp D` is preserved by all steps; `D` are the calls looked at so far. -/
structure Pres (m : Mod N F I) (R : Resolver σ N F I) (fs : List F) (Q : St N F σ → Spec N F → List N → Prop) : Prop where
  other : ∀ s sp D i, Q s sp D → Q { s with res := R.other s.res i } sp D
  skip : ∀ s sp D f w, Q s sp D → s.wl = f :: w → (m.body f = none ∨ f ∈ s.visited) → Q { s with wl := w } sp D
  enter : ∀ s sp D f w, Q s sp D → s.wl = f :: w → m.body f ≠ none → f ∉ s.visited →
    Q { s with wl := w, visited := f :: s.visited, g := (addFun s.g f).1 } ⟨sp.edges, addTo sp.fns f, sp.tags⟩ D
  call : ∀ s sp D c s' sp', Q s sp D → (∃ f ∈ s.visited, CallIn m f c) → (Uniq m → c ∉ D) →
    sp'.edges = sp.edges ++ (fill m R c s).1.map (fun t => (c, t)) → s'.wl = (fill m R c s).1.reverse ++ s.wl →
    s'.visited = s.visited → s'.ind = (fill m R c s).2.2.ind →
    s'.res = R.handle (fill m R c s).2.2.res c (fill m R c s).1 → Q s' sp' (c :: D)
  dynNo : ∀ s sp D c n, Q s sp D → getInd c s.ind = some n → (R.resolve s.res c).1.length ≤ n →
    Q { s with res := (R.resolve s.res c).2 } sp D
  dynYes : ∀ s sp D c n s' sp' ts, Q s sp D → getInd c s.ind = some n → n < (R.resolve s.res c).1.length →
    ts = (R.resolve s.res c).1.filter (fun t => decide (t ∉ calleesIn sp.edges c)) →
    sp'.edges = sp.edges ++ ts.map (fun t => (c, t)) → s'.wl = ts.reverse ++ s.wl → s'.visited = s.visited →
    s'.ind = setInd c (R.resolve s.res c).1.length s.ind → s'.res = R.handle (R.resolve s.res c).2 c ts → Q s' sp' D

/-- The invariant between functions. -/
structure Full (m : Mod N F I) (fs : List F) (Q : St N F σ → Spec N F → List N → Prop) (s : St N F σ) (sp : Spec N F)
    (D : List N) : Prop where
  base : Base m fs s sp
  q : Q s sp D
  done : ∀ f ∈ s.visited, ∀ c, CallIn m f c → c ∈ D
  only : ∀ c ∈ D, ∃ f ∈ s.visited, CallIn m f c

section
variable {m : Mod N F I} {R : Resolver σ N F I} {entries fs : List F} {Q : St N F σ → Spec N F → List N → Prop}

theorem instrs_ok (hF : Finite m R entries fs) (hQ : Pres m R fs Q) {f : F} {body : List (Ins N I)} (hbody : m.body f = some body)
    (D0 : List N) (hD0 : Uniq m → ∀ c ∈ D0, ¬ CallIn m f c) (is : List (Ins N I)) :
    ∀ {pre : List (Ins N I)} {s : St N F σ} {sp : Spec N F} {D : List N} (b : Bool), body = pre ++ is → Base m fs s sp →
      Q s sp D → f ∈ s.visited → (∀ c, c ∈ D ↔ c ∈ D0 ∨ Ins.call c ∈ pre) →
      ∃ s' sp' D' b', instrs m R is s b = some (s', b') ∧ Base m fs s' sp' ∧ Q s' sp' D' ∧ s'.visited = s.visited ∧
        ∀ c, c ∈ D' ↔ c ∈ D0 ∨ Ins.call c ∈ body := by
  induction is with
  | nil =>
    intro pre s sp D b hp hb hq _ hD
    refine ⟨s, sp, D, b, rfl, hb, hq, rfl, ?_⟩
    rw [hp, List.append_nil]; exact hD
  | cons x is ih =>
    intro pre s sp D b hp hb hq hv hD
    cases x with
    | other i =>
      have h := ih (pre := pre ++ [.other i]) (s := { s with res := R.other s.res i }) (sp := sp) (D := D) (b && true)
        (by simp [hp]) (base_other hb _) (hQ.other s sp D i hq) hv (fun c => by rw [hD c]; simp)
      obtain ⟨s', sp', D', b', h1, h2⟩ := h
      exact ⟨s', sp', D', b', h1, h2⟩
    | call c =>
      obtain ⟨s1, sp1, c1, c2, c3, c4, c5, c6, c7, _⟩ := call_ok hF hb c
      have hin : CallIn m f c := ⟨body, hbody, by rw [hp]; simp⟩
      have hnd : Uniq m → c ∉ D := by
        intro hu hc
        rcases (hD c).1 hc with h | h
        · exact hD0 hu c h hin
        · exact hu.2 f pre is c (by rw [hbody, hp]) h
      have hq1 := hQ.call s sp D c s1 sp1 hq ⟨f, hv, hin⟩ hnd c3 c4 c5 c6 c7
      have h := ih (pre := pre ++ [.call c]) (s := s1) (sp := sp1) (D := c :: D) (b && (fill m R c s).2.1) (by simp [hp]) c2 hq1
        (by rw [c5]; exact hv) (fun c' => by
          rw [List.mem_cons, hD c']
          simp only [List.mem_append, List.mem_singleton, Ins.call.injEq]
          constructor
          · rintro (h | h | h)
            · exact Or.inr (Or.inr h)
            · exact Or.inl h
            · exact Or.inr (Or.inl h)
          · rintro (h | h | h)
            · exact Or.inr (Or.inl h)
            · exact Or.inr (Or.inr h)
            · exact Or.inl h)
      obtain ⟨s', sp', D', b', h1, h2, h3, h4, h5⟩ := h
      refine ⟨s', sp', D', b', ?_, h2, h3, h4.trans c5, h5⟩
      simp only [instrs, c1, Option.bind]; exact h1

/-- One iteration over the worklist. -/
theorem process_ok (hF : Finite m R entries fs) (hQ : Pres m R fs Q) {s : St N F σ} {sp : Spec N F} {D : List N} {f : F}
    {w : List F} (hfull : Full m fs Q s sp D) (hw : s.wl = f :: w) :
    ∃ s' sp' D' b, process m R f { s with wl := w } = some (s', b) ∧ Full m fs Q s' sp' D' ∧
      ((s'.visited = s.visited ∧ s'.wl = w ∧ s'.ind = s.ind ∧ b = true) ∨ s.visited.length < s'.visited.length) := by
  have hf : f ∈ fs := hfull.base.wl f (by rw [hw]; simp)
  have hbw : Base m fs { s with wl := w } sp :=
    ⟨hfull.base.inv, hfull.base.fns, hfull.base.fnsN, fun x hx => hfull.base.wl x (by rw [hw]; simp [show x ∈ w from hx]),
      hfull.base.vis, hfull.base.visN, hfull.base.ind, hfull.base.vtx, hfull.base.visB⟩
  cases hbody : m.body f with
  | none =>
    refine ⟨{ s with wl := w }, sp, D, true, by simp only [process, hbody],
      ⟨hbw, hQ.skip s sp D f w hfull.q hw (Or.inl hbody), hfull.done, hfull.only⟩, Or.inl ⟨rfl, rfl, rfl, rfl⟩⟩
  | some is =>
    by_cases hv : f ∈ s.visited
    · refine ⟨{ s with wl := w }, sp, D, true, by simp only [process, hbody, if_pos hv],
        ⟨hbw, hQ.skip s sp D f w hfull.q hw (Or.inr hv), hfull.done, hfull.only⟩, Or.inl ⟨rfl, rfl, rfl, rfl⟩⟩
    · have h1 := base_enter hF hbw (f := f) hf hv (by rw [hbody]; simp)
      have h2 := hQ.enter s sp D f w hfull.q hw (by rw [hbody]; simp) hv
      obtain ⟨s', sp', D', b', e1, e2, e3, e4, e5⟩ := instrs_ok hF hQ hbody D (fun hu c hc hin => by
        obtain ⟨f', hf', hc'⟩ := hfull.only c hc
        exact hv (hu.1 f f' c hin hc' ▸ hf')) is (pre := []) true rfl h1 h2 (by simp) (fun c => by simp)
      refine ⟨s', sp', D', b', by simp only [process, hbody, if_neg hv]; exact e1, ⟨e2, e3, ?_, ?_⟩, Or.inr ?_⟩
      · intro x hx c hc
        rw [e4] at hx
        rcases List.mem_cons.1 hx with h | h
        · subst h
          obtain ⟨is', i1, i2⟩ := hc
          rw [hbody] at i1
          cases i1
          exact (e5 c).2 (Or.inr i2)
        · exact (e5 c).2 (Or.inl (hfull.done x h c hc))
      · intro c hc
        rw [e4]
        rcases (e5 c).1 hc with h | h
        · obtain ⟨x, x1, x2⟩ := hfull.only c h
          exact ⟨x, by simp [x1], x2⟩
        · exact ⟨f, by simp, is, hbody, h⟩
      · rw [e4]; simp

theorem drain_mono (n : Nat) : ∀ (k : Nat) (s : St N F σ) (b : Bool) (r : St N F σ × Bool), drain m R n s b = some r →
    drain m R (n + k) s b = some r := by
  induction n with
  | zero => intro k s b r h; simp [drain] at h
  | succ n ih =>
    intro k s b r h
    rw [show n + 1 + k = (n + k) + 1 by omega]
    simp only [drain] at h ⊢
    cases hw : s.wl with
    | nil => rw [hw] at h; exact h
    | cons f w =>
      rw [hw] at h
      simp only at h ⊢
      cases hp : process m R f { s with wl := w } with
      | none => rw [hp] at h; cases h
      | some p =>
        rw [hp] at h
        exact ih k p.1 _ r h

theorem drain_ok (hF : Finite m R entries fs) (hQ : Pres m R fs Q) : ∀ (a k : Nat) {s : St N F σ} {sp : Spec N F} {D : List N} (b : Bool),
    Full m fs Q s sp D → fs.length - s.visited.length = a → s.wl.length = k →
    ∃ n s' sp' D' b', drain m R n s b = some (s', b') ∧ Full m fs Q s' sp' D' ∧ s'.wl = [] ∧
      ((s'.visited = s.visited ∧ s'.ind = s.ind ∧ b' = b) ∨ s.visited.length < s'.visited.length) := by
  intro a
  induction a using Nat.strongRecOn with
  | ind a iha =>
    intro k
    induction k using Nat.strongRecOn with
    | ind k ihk =>
      intro s sp D b hfull ha hk
      cases hw : s.wl with
      | nil => exact ⟨1, s, sp, D, b, by simp only [drain, hw], hfull, hw, Or.inl ⟨rfl, rfl, rfl⟩⟩
      | cons f w =>
        obtain ⟨s1, sp1, D1, b1, p1, p2, p3⟩ := process_ok hF hQ hfull hw
        rcases p3 with ⟨v1, v2, v3, v4⟩ | hlt
        · obtain ⟨n, s', sp', D', b', e1, e2, e3, e4⟩ := ihk w.length (by rw [← hk, hw]; simp) (b && b1) p2 (by rw [v1]; exact ha)
            (by rw [v2])
          refine ⟨n + 1, s', sp', D', b', by simp only [drain, hw, p1, Option.bind]; exact e1, e2, e3, ?_⟩
          rcases e4 with ⟨g1, g2, g3⟩ | g1
          · exact Or.inl ⟨g1.trans v1, g2.trans v3, by rw [g3, v4]; simp⟩
          · rw [v1] at g1; exact Or.inr g1
        · have hle := nodup_len p2.base.visN p2.base.vis
          obtain ⟨n, s', sp', D', b', e1, e2, e3, e4⟩ := iha (fs.length - s1.visited.length) (by omega) s1.wl.length (b && b1) p2 rfl rfl
          refine ⟨n + 1, s', sp', D', b', by simp only [drain, hw, p1, Option.bind]; exact e1, e2, e3, Or.inr ?_⟩
          rcases e4 with ⟨g1, _, _⟩ | g1
          · rw [g1]; exact hlt
          · omega

/-- How far the recorded numbers of targets can still grow. -/
def slack (L : Nat) : List (N × Nat) → Nat
  | [] => 0
  | p :: l => (L - p.2) + slack L l

theorem slack_setInd (L : Nat) (c : N) (n n' : Nat) : ∀ (l : List (N × Nat)), getInd c l = some n → n < n' → n' ≤ L →
    slack L (setInd c n' l) < slack L l := by
  intro l
  induction l with
  | nil => intro h; simp [getInd] at h
  | cons p l ih =>
    intro h h1 h2
    simp only [getInd] at h
    simp only [setInd]
    by_cases hp : p.1 = c
    · rw [if_pos hp] at h ⊢
      cases h
      simp only [slack]; omega
    · rw [if_neg hp] at h ⊢
      have := ih h h1 h2
      simp only [slack]; omega

/-- The loop over `IndirectCalls`. -/
theorem dynamicCalls_ok (hF : Finite m R entries fs) (hQ : Pres m R fs Q) (cs : List N) : ∀ {s : St N F σ} {sp : Spec N F} {D : List N}
    (b : Bool), Full m fs Q s sp D → (∀ c ∈ cs, ∃ n, getInd c s.ind = some n) →
    ∃ s' sp' b', dynamicCalls R cs s b = some (s', b') ∧ Full m fs Q s' sp' D ∧ s'.visited = s.visited ∧
      slack fs.length s'.ind ≤ slack fs.length s.ind ∧ (b' = false → b = false ∨ slack fs.length s'.ind < slack fs.length s.ind) ∧
      (b' = true → b = true ∧ sp' = sp ∧ s'.ind = s.ind ∧ s'.wl = s.wl ∧ s'.g = s.g ∧
        ∀ c ∈ cs, ∃ r n, Q { s' with res := r } sp' D ∧ getInd c s'.ind = some n ∧ (R.resolve r c).1.length ≤ n) := by
  induction cs with
  | nil =>
    intro s sp D b hfull _
    exact ⟨s, sp, b, rfl, hfull, rfl, Nat.le_refl _, Or.inl, fun h => ⟨h, rfl, rfl, rfl, rfl, by simp⟩⟩
  | cons c cs ih =>
    intro s sp D b hfull hcs
    obtain ⟨n, hn⟩ := hcs c (by simp)
    rcases dynamicCall_ok hF hfull.base hn with ⟨h1, h2⟩ | ⟨h1, s1, sp1, ts, h2, h3, h4, h5, h6, h7, h8, h9⟩
    · have hq1 := hQ.dynNo s sp D c n hfull.q hn h1
      have hfull1 : Full m fs Q { s with res := (R.resolve s.res c).2 } sp D := ⟨base_other hfull.base _, hq1, hfull.done, hfull.only⟩
      obtain ⟨s', sp', b', e1, e2, e3, e4, e5, e6⟩ := ih (b && !false) hfull1 (fun c' hc' => hcs c' (by simp [hc']))
      refine ⟨s', sp', b', by simp only [dynamicCalls, h2, Option.bind]; exact e1, e2, e3, e4, ?_, ?_⟩
      · intro hb
        rcases e5 hb with h | h
        · left; simpa using h
        · exact Or.inr h
      · intro hb
        obtain ⟨g1, g2, g3, g4, g5, g6⟩ := e6 hb
        refine ⟨by simpa using g1, g2, g3, g4, g5, ?_⟩
        intro c' hc'
        rcases List.mem_cons.1 hc' with h | h
        · subst h
          refine ⟨s.res, n, ?_, by rw [g3]; exact hn, h1⟩
          rw [g2]
          have hs : ({ s' with res := s.res } : St N F σ) = s := by
            cases s' with
            | mk wl visited ind g res => simp only at g3 g4 g5 e3; rw [g3, g4, g5, e3]
          rw [hs]; exact hfull.q
        · exact g6 c' h
    · have hq1 := hQ.dynYes s sp D c n s1 sp1 ts hfull.q hn h1 h3 h5 h6 h7 h8 h9
      have hfull1 : Full m fs Q s1 sp1 D := ⟨h4, hq1, by rw [h7]; exact hfull.done, by rw [h7]; exact hfull.only⟩
      have hsl : slack fs.length s1.ind < slack fs.length s.ind := by
        rw [h8]
        exact slack_setInd fs.length c n _ s.ind hn h1 (nodup_len (hF.nodupAns s.res c) (hF.ans s.res c))
      obtain ⟨s', sp', b', e1, e2, e3, e4, e5, e6⟩ := ih (b && !true) hfull1 (fun c' hc' => by
        obtain ⟨k, hk⟩ := hcs c' (by simp [hc'])
        rw [h8, getInd_setInd]
        by_cases he : c = c'
        · exact ⟨_, if_pos he⟩
        · rw [if_neg he]; exact ⟨k, hk⟩)
      refine ⟨s', sp', b', by simp only [dynamicCalls, h2, Option.bind]; exact e1, e2, e3.trans h7, by omega, fun _ => Or.inr (by omega), ?_⟩
      intro hb
      obtain ⟨g1, _⟩ := e6 hb
      simp at g1

theorem rounds_mono {ord : List N → List N} {req : Bool} (n : Nat) : ∀ (k : Nat) (s r : St N F σ), rounds m R ord req n s = some r →
    rounds m R ord req (n + k) s = some r := by
  induction n with
  | zero => intro k s r h; simp [rounds] at h
  | succ n ih =>
    intro k s r h
    rw [show n + 1 + k = (n + k) + 1 by omega]
    simp only [rounds] at h ⊢
    cases hp : drain m R n s true with
    | none => rw [hp] at h; cases h
    | some p =>
      rw [hp] at h
      rw [drain_mono n k s true p hp]
      simp only [Option.bind] at h ⊢
      split at h
      · cases h
      · rename_i q hq
        rw [hq]
        simp only at h ⊢
        by_cases hb : q.2 = true
        · rw [if_pos hb] at h ⊢; exact h
        · rw [if_neg hb] at h ⊢; exact ih k q.1 r h

/-- How the construction ends. -/
structure End (m : Mod N F I) (R : Resolver σ N F I) (fs : List F) (Q : St N F σ → Spec N F → List N → Prop) (req : Bool)
    (s : St N F σ) (sp : Spec N F) (D : List N) : Prop where
  full : Full m fs Q s sp D
  wl : s.wl = []
  stable : req = true → ∀ c n, getInd c s.ind = some n → ∃ r, Q { s with res := r } sp D ∧ (R.resolve r c).1.length ≤ n

theorem rounds_ok (hF : Finite m R entries fs) (hQ : Pres m R fs Q) {ord : List N → List N} (hord : ∀ l x, x ∈ ord l ↔ x ∈ l)
    (req : Bool) : ∀ (a k : Nat) {s : St N F σ} {sp : Spec N F} {D : List N}, Full m fs Q s sp D →
    fs.length - s.visited.length = a → slack fs.length s.ind = k →
    ∃ n s' sp' D', rounds m R ord req n s = some s' ∧ End m R fs Q req s' sp' D' := by
  intro a
  induction a using Nat.strongRecOn with
  | ind a iha =>
    intro k
    induction k using Nat.strongRecOn with
    | ind k ihk =>
      intro s sp D hfull ha hk
      obtain ⟨n, s1, sp1, D1, b1, d1, d2, d3, d4⟩ := drain_ok hF hQ _ _ true hfull rfl rfl
      have hle := nodup_len d2.base.visN d2.base.vis
      cases req with
      | false =>
        cases b1 with
        | true =>
          refine ⟨n + 1, s1, sp1, D1, ?_, d2, d3, by simp⟩
          simp only [rounds, d1, Option.bind]; simp
        | false =>
          rcases d4 with ⟨_, _, h⟩ | hlt
          · cases h
          · obtain ⟨n2, s', sp', D', e1, e2⟩ := iha (fs.length - s1.visited.length) (by omega) _ d2 rfl rfl
            refine ⟨n + n2 + 1, s', sp', D', ?_, e2⟩
            simp only [rounds, drain_mono n n2 s true _ d1, Option.bind]
            simp only [Bool.false_eq_true, if_false]
            rw [Nat.add_comm n n2]
            exact rounds_mono n2 n s1 s' e1
      | true =>
        obtain ⟨s2, sp2, b2, c1, c2, c3, c4, c5, c6⟩ := dynamicCalls_ok hF hQ (ord (s1.ind.map (·.1))) b1 d2 (fun c hc => by
          exact (getInd_mem c s1.ind).2 ((hord _ c).1 hc))
        cases b2 with
        | true =>
          obtain ⟨g1, g2, g3, g4, g5, g6⟩ := c6 rfl
          refine ⟨n + 1, s2, sp2, D1, ?_, c2, g4.trans d3, ?_⟩
          · simp only [rounds, d1, Option.bind, if_true, c1]
          · intro _ c k hck
            obtain ⟨r, k', r1, r2, r3⟩ := g6 c ((hord _ c).2 ((getInd_mem c s1.ind).1 ⟨k, by rw [← g3]; exact hck⟩))
            rw [hck] at r2
            cases r2
            exact ⟨r, r1, r3⟩
        | false =>
          have hstep : ∃ n2 s' sp' D', rounds m R ord true n2 s2 = some s' ∧ End m R fs Q true s' sp' D' := by
            have hle2 := nodup_len c2.base.visN c2.base.vis
            by_cases hlt : s.visited.length < s2.visited.length
            · exact iha (fs.length - s2.visited.length) (by omega) _ c2 rfl rfl
            · rcases d4 with ⟨h1, h2, h3⟩ | h1
              · rcases c5 rfl with h | h
                · rw [h3] at h; cases h
                · exact ihk (slack fs.length s2.ind) (by rw [h2] at h; omega) c2 (by rw [c3, h1]; exact ha) rfl
              · rw [c3] at hlt; omega
          obtain ⟨n2, s', sp', D', e1, e2⟩ := hstep
          refine ⟨n + n2 + 1, s', sp', D', ?_, e2⟩
          simp only [rounds, drain_mono n n2 s true _ d1, Option.bind, if_true, c1]
          simp only [Bool.false_eq_true, if_false]
          rw [Nat.add_comm n n2]
          exact rounds_mono n2 n s2 s' e1

/-- Every run ends, always in the same state, and satisfies any preserved invariant. -/
theorem build_ok (hF : Finite m R entries fs) (hQ : Pres m R fs Q) {ord : List N → List N} (hord : ∀ l x, x ∈ ord l ↔ x ∈ l)
    (sound : Bool) (r : σ) (hq : Q (init m entries r) ⟨[], [], []⟩ []) :
    ∃ n s' sp' D', End m R fs Q (sound && R.mutates) s' sp' D' ∧ (∀ k, build m R ord entries sound r (n + k) = some s') ∧
      ∀ k s'', build m R ord entries sound r k = some s'' → s'' = s' := by
  have hfull : Full m fs Q (init m entries r) ⟨[], [], []⟩ [] :=
    ⟨base_init hF r, hq, by simp [init], by simp⟩
  obtain ⟨n, s', sp', D', e1, e2⟩ := rounds_ok hF hQ hord (sound && R.mutates) _ _ hfull rfl rfl
  refine ⟨n, s', sp', D', e2, fun k => rounds_mono n k _ _ e1, ?_⟩
  intro k s'' hk
  have h1 := rounds_mono n k _ _ e1
  have h2 := rounds_mono k n _ _ hk
  rw [Nat.add_comm k n] at h2
  rw [h1] at h2
  exact (Option.some.inj h2).symm

end

end Phasar.CG
