import Verif.Alias.StratifiedOps

/-! # Lemmas about the builder of stratified sets: what a history of requests leads to -/
namespace Phasar.Stratified
open CFLAnders (Attr Node)

variable {b b' b'' : Builder} {cs cs' cs'' : List (List Nat)} {φ ψ : Nat → Nat}

/-- The value a request is about: it has to be there. -/
def Op.main : Op → Option Node
  | .add _ => none
  | .above m _ | .below m _ | .with_ m _ | .note m _ => some m

/-- The value a request adds. -/
def Op.new : Op → Option Node
  | .add t | .above _ t | .below _ t | .with_ _ t => some t
  | .note _ _ => none

/-- Labels of values go with a request. -/
def Op.ok {G : Type} (σ : G → G) (ρ : Node → G) : Op → Prop
  | .add _ | .note _ _ => True
  | .with_ m t => ρ t = ρ m
  | .below m t => ρ t = σ (ρ m)
  | .above m t => ρ m = σ (ρ t)

/-- What a request is for. -/
def Op.done (b : Builder) (cs : List (List Nat)) : Op → Prop
  | .add _ | .note _ _ => True
  | .with_ m t => ∀ r s, InSet b m r → InSet b t s → r = s
  | .below m t => ∀ r s, InSet b m r → InSet b t s → r = s ∨ AdjS cs r s
  | .above m t => ∀ r s, InSet b m r → InSet b t s → s = r ∨ AdjS cs s r

/-- The attributes a request notes. -/
def Op.notes : Op → Option (Node × Attr)
  | .note m a => some (m, a)
  | _ => none

theorem Evo.det (h : Evo b b' cs cs' φ) {v : Node} {r s : Nat} (hr : InSet b v r) (hs : InSet b' v s) : s = φ r :=
  hs.det (h.inSet hr)

theorem exec_ok (hr : Rep b cs) (op : Op) (hm : ∀ m, op.main = some m → (b.values m).isSome) :
    ∃ (b' : Builder) (cs' : List (List Nat)) (φ : Nat → Nat), b.exec op = some b' ∧ Rep b' cs' ∧ (∀ v k, b.values v = some k → b'.values v = some k) ∧
      (∀ i r, Find b i r → Find b' i (φ r)) ∧ (∀ r s, AdjS cs r s → φ r = φ s ∨ AdjS cs' (φ r) (φ s)) ∧
      (∀ p, Hom p → ∀ s, Root b' s → (p (b'.links s).attrs = true ↔ (∃ r, Root b r ∧ φ r = s ∧ p (b.links r).attrs = true) ∨
        ∃ m a, op.notes = some (m, a) ∧ InSet b' m s ∧ p a = true)) ∧
      (∀ w, (b'.values w).isSome ↔ (b.values w).isSome ∨ op.new = some w) ∧ op.done b' cs' ∧
      ∀ {G : Type} (σ : G → G) (γ : Nat → G) (ρ : Node → G), Shift σ → Fits σ γ ρ b cs → op.ok σ ρ → ∃ γ', Fits σ γ' ρ b' cs' := by
  have wrap : ∀ {b' cs' φ}, Evo b b' cs cs' φ → op.notes = none → ∀ p, Hom p → ∀ s, Root b' s →
      (p (b'.links s).attrs = true ↔ (∃ r, Root b r ∧ φ r = s ∧ p (b.links r).attrs = true) ∨
        ∃ m a, op.notes = some (m, a) ∧ InSet b' m s ∧ p a = true) := by
    intro b' cs' φ h hn p hp s hs
    rw [h.attrs p hp s hs, hn]
    simp
  cases op with
  | add v =>
    by_cases hv : (b.values v).isSome
    · refine ⟨b, cs, id, by simp [Builder.exec, Builder.add, hv], hr, fun _ _ h => h, fun _ _ h => h, fun _ _ h => .inr h,
        wrap (.refl hr) rfl, fun w => ?_, trivial, fun _ γ _ _ h _ => ⟨γ, h⟩⟩
      simp only [Op.new, Option.some.injEq]
      constructor
      · exact .inl
      · rintro (h | rfl)
        · exact h
        · exact hv
    · have h1 := addLinks_rep hr
      have hn : Root b.addLinks.1 b.n := addLinks_grow.root.2 (.inl rfl)
      have hev := addLinks_grow.evo (cs := cs) h1 fun r s ⟨c, hc, ha⟩ => ⟨c, .tail _ hc, ha⟩
      obtain ⟨b', cs', φ, h2, h3, h4, h5, h6⟩ := addAt_ok h1 hn v
      have h7 := hev.trans h3
      refine ⟨b', cs', φ, ?_, h3.rep, h7.values, h7.find, h7.adj, wrap h7 rfl, fun w => ?_, trivial, ?_⟩
      · simp only [Builder.exec, Builder.add, hv]
        exact h2
      · rw [h5]
        simp only [Op.new, Option.some.injEq]
        rw [eq_comm (a := v)]
        exact Iff.rfl
      · intro G σ γ ρ hσ hf _
        refine ⟨fun r => if r = b.n then ρ v else γ r, h6 σ _ ρ hσ (addLinks_grow.fits hr hf (ρ v) ?_) (by simp)⟩
        rintro r s ⟨c, hc, ha⟩
        dsimp only
        rcases List.mem_cons.1 hc with rfl | hc
        · rcases adj_cons.1 ha with ⟨_, h⟩ | ⟨u, w, h⟩
          · cases h
          · simp at h
        · have hl := hr.adj_lt ⟨c, hc, ha⟩
          rw [if_neg (Nat.ne_of_lt hl.1), if_neg (Nat.ne_of_lt hl.2)]
          exact hf.1 r s ⟨c, hc, ha⟩
  | with_ m t =>
    obtain ⟨i, k, hk, hi⟩ := hr.inSet (hm m rfl)
    obtain ⟨b', cs', φ, h2, h3, h4, h5, h6⟩ := addAt_ok hr hi.root t
    refine ⟨b', cs', φ, ?_, h3.rep, h3.values, h3.find, h3.adj, wrap h3 rfl, fun w => ?_, ?_, ?_⟩
    · simp only [Builder.exec, Builder.addWith, Builder.indexOf, hk, hr.base.linksAt hi, Option.bind_eq_bind, Option.bind_some, h2]
    · rw [h5]
      simp only [Op.new, Option.some.injEq]
      rw [eq_comm (a := t)]
    · intro r s hr' hs'
      rw [h3.det ⟨k, hk, hi⟩ hr', hs'.det h4]
    · intro G σ γ ρ hσ hf hok
      exact ⟨γ, h6 σ γ ρ hσ hf ((hf.2 m i ⟨k, hk, hi⟩).trans hok.symm)⟩
  | below m t =>
    obtain ⟨i, k, hk, hi⟩ := hr.inSet (hm m rfl)
    obtain ⟨c, hc, hic⟩ := hr.chain hi.root
    have hp : cs.Perm (c :: cs.erase c) := List.perm_cons_erase hc
    obtain ⟨u, d, rfl⟩ := List.append_of_mem hic
    have hr' := hr.perm hp
    have hbl : (b.links i).below = d.head? := by have := (hr.seg _ hc).below; rwa [Option.or_none] at this
    cases d with
    | nil =>
      obtain ⟨b1, h1, hg, hr1, hb1⟩ := below_ok hr'
      have hi1 : Root b1 i := hg.root.2 (.inr hi.root)
      have hn1 : Root b1 b.n := hg.root.2 (.inl rfl)
      have hadj : ∀ r s, AdjS cs r s → AdjS ((u ++ [i, b.n]) :: cs.erase (u ++ [i])) r s := by
        intro r s ha
        obtain ⟨c, hc, ha⟩ := (AdjS.perm hp).1 ha
        rcases List.mem_cons.1 hc with rfl | hc
        · refine ⟨_, .head _, ?_⟩
          rw [show u ++ [i, b.n] = (u ++ [i]) ++ [b.n] by simp]
          exact adj_append_left ha
        · exact ⟨c, .tail _ hc, ha⟩
      have hev := hg.evo (cs := cs) hr1 hadj
      obtain ⟨b', cs', φ, h2, h3, h4, h5, h6⟩ := addAt_ok hr1 hn1 t
      have h7 := hev.trans h3
      refine ⟨b', cs', φ, ?_, h3.rep, h7.values, h7.find, h7.adj, wrap h7 rfl, fun w => ?_, ?_, ?_⟩
      · have e1 : b.addLinkBelow i = some b1 := h1
        simp only [Builder.exec, Builder.addBelow, Builder.indexOf, hk, hr.base.linksAt hi, Option.bind_eq_bind, Option.bind_some,
          link_root hi.root, hbl, List.head?_nil, Option.isNone_none, if_true, e1, link_root hi1, hb1, h2]
      · rw [h5, hg.values]
        simp only [Op.new, Option.some.injEq]
        rw [eq_comm (a := t)]
      · intro r s hr' hs'
        rw [h7.det ⟨k, hk, hi⟩ hr', hs'.det h4]
        exact h3.adj i b.n ⟨_, .head _, u, [], rfl⟩
      · intro G σ γ ρ hσ hf hok
        refine ⟨fun r => if r = b.n then ρ t else γ r, h6 σ _ ρ hσ (hg.fits hr hf (ρ t) ?_) (by simp)⟩
        rintro r s ⟨c, hc', ha⟩
        dsimp only
        have old : AdjS cs r s → (if s = b.n then ρ t else γ s) = σ (if r = b.n then ρ t else γ r) := by
          intro h
          have hl := hr.adj_lt h
          rw [if_neg (Nat.ne_of_lt hl.1), if_neg (Nat.ne_of_lt hl.2)]
          exact hf.1 r s h
        rcases List.mem_cons.1 hc' with rfl | hc'
        · rw [show u ++ [i, b.n] = (u ++ [i]) ++ [b.n] by simp] at ha
          rcases adj_append.1 ha with h | ⟨h, h'⟩ | ⟨_, _, h⟩
          · exact old ⟨_, hc, h⟩
          · rw [getLast?_append_cons] at h
            cases h
            cases h'
            rw [if_pos rfl, if_neg (Nat.ne_of_lt hi.root.1), hf.2 m i ⟨k, hk, hi⟩]
            exact hok
          · have := congrArg List.length h
            simp at this
            omega
        · exact old ((AdjS.perm hp).2 ⟨c, .tail _ hc', ha⟩)
    | cons z d =>
      have hz : Root b z := (hr'.base.roots z).1 (by simp)
      have hadj : AdjS cs i z := ⟨_, hc, u, d, rfl⟩
      obtain ⟨b', cs', φ, h2, h3, h4, h5, h6⟩ := addAt_ok hr hz t
      refine ⟨b', cs', φ, ?_, h3.rep, h3.values, h3.find, h3.adj, wrap h3 rfl, fun w => ?_, ?_, ?_⟩
      · simp [Builder.exec, Builder.addBelow, Builder.indexOf, hk, hr.base.linksAt hi, link_root hi.root, hbl, h2]
      · rw [h5]
        simp only [Op.new, Option.some.injEq]
        rw [eq_comm (a := t)]
      · intro r s hr' hs'
        rw [h3.det ⟨k, hk, hi⟩ hr', hs'.det h4]
        exact h3.adj i z hadj
      · intro G σ γ ρ hσ hf hok
        refine ⟨γ, h6 σ γ ρ hσ hf ?_⟩
        rw [hf.1 i z hadj, hf.2 m i ⟨k, hk, hi⟩]
        exact hok.symm
  | above m t =>
    obtain ⟨i, k, hk, hi⟩ := hr.inSet (hm m rfl)
    obtain ⟨c, hc, hic⟩ := hr.chain hi.root
    have hp : cs.Perm (c :: cs.erase c) := List.perm_cons_erase hc
    obtain ⟨u, d, rfl⟩ := List.append_of_mem hic
    have hr' := hr.perm hp
    have hab : (b.links i).above = u.getLast? := by have := (hr.seg _ hc).above; rwa [Option.or_none] at this
    rcases List.eq_nil_or_concat u with rfl | ⟨u, z, rfl⟩
    · obtain ⟨b1, h1, hg, hr1, hb1⟩ := above_ok hr'
      have hi1 : Root b1 i := hg.root.2 (.inr hi.root)
      have hn1 : Root b1 b.n := hg.root.2 (.inl rfl)
      have hadj : ∀ r s, AdjS cs r s → AdjS ((b.n :: i :: d) :: cs.erase ([] ++ i :: d)) r s := by
        intro r s ha
        obtain ⟨c, hc, ha⟩ := (AdjS.perm hp).1 ha
        rcases List.mem_cons.1 hc with rfl | hc
        · exact ⟨_, .head _, adj_cons.2 (.inr ha)⟩
        · exact ⟨c, .tail _ hc, ha⟩
      have hev := hg.evo (cs := cs) hr1 hadj
      obtain ⟨b', cs', φ, h2, h3, h4, h5, h6⟩ := addAt_ok hr1 hn1 t
      have h7 := hev.trans h3
      refine ⟨b', cs', φ, ?_, h3.rep, h7.values, h7.find, h7.adj, wrap h7 rfl, fun w => ?_, ?_, ?_⟩
      · simp only [Builder.exec, Builder.addAbove, Builder.indexOf, hk, hr.base.linksAt hi, Option.bind_eq_bind, Option.bind_some,
          link_root hi.root, hab, List.getLast?_nil, Option.isNone_none, if_true, h1, link_root hi1, hb1, h2]
      · rw [h5, hg.values]
        simp only [Op.new, Option.some.injEq]
        rw [eq_comm (a := t)]
      · intro r s hr' hs'
        rw [h7.det ⟨k, hk, hi⟩ hr', hs'.det h4]
        exact h3.adj b.n i ⟨_, .head _, [], d, rfl⟩
      · intro G σ γ ρ hσ hf hok
        refine ⟨fun r => if r = b.n then ρ t else γ r, h6 σ _ ρ hσ (hg.fits hr hf (ρ t) ?_) (by simp)⟩
        rintro r s ⟨c, hc', ha⟩
        dsimp only
        have old : AdjS cs r s → (if s = b.n then ρ t else γ s) = σ (if r = b.n then ρ t else γ r) := by
          intro h
          have hl := hr.adj_lt h
          rw [if_neg (Nat.ne_of_lt hl.1), if_neg (Nat.ne_of_lt hl.2)]
          exact hf.1 r s h
        rcases List.mem_cons.1 hc' with rfl | hc'
        · rcases adj_cons.1 ha with ⟨h, h'⟩ | h
          · cases h
            cases h'
            rw [if_pos rfl, if_neg (Nat.ne_of_lt hi.root.1), hf.2 m i ⟨k, hk, hi⟩]
            exact hok
          · exact old ⟨_, hc, h⟩
        · exact old ((AdjS.perm hp).2 ⟨c, .tail _ hc', ha⟩)
    · have hz : Root b z := (hr'.base.roots z).1 (by simp)
      have hadj : AdjS cs z i := ⟨_, hc, u, d, by simp⟩
      obtain ⟨b', cs', φ, h2, h3, h4, h5, h6⟩ := addAt_ok hr hz t
      refine ⟨b', cs', φ, ?_, h3.rep, h3.values, h3.find, h3.adj, wrap h3 rfl, fun w => ?_, ?_, ?_⟩
      · simp [Builder.exec, Builder.addAbove, Builder.indexOf, hk, hr.base.linksAt hi, link_root hi.root, hab, h2]
      · rw [h5]
        simp only [Op.new, Option.some.injEq]
        rw [eq_comm (a := t)]
      · intro r s hr' hs'
        rw [h3.det ⟨k, hk, hi⟩ hr', hs'.det h4]
        exact h3.adj z i hadj
      · intro G σ γ ρ hσ hf hok
        refine ⟨γ, h6 σ γ ρ hσ hf (hσ.inj _ _ ?_)⟩
        rw [← hf.1 z i hadj, hf.2 m i ⟨k, hk, hi⟩]
        exact hok
  | note m a =>
    obtain ⟨i, k, hk, hi⟩ := hr.inSet (hm m rfl)
    have hs : SameMap b (b.set i ((b.links i).more a)) := set_sameMap rfl
    refine ⟨b.set i ((b.links i).more a), cs, id, ?_, ⟨hs.base hr.base, fun c hc => (hr.seg c hc).congr fun j hj => ?_⟩, fun _ _ h => h,
      fun _ _ h => hs.find.2 h, fun _ _ h => .inr h, fun p hp s hs' => ?_, fun w => ?_, trivial, ?_⟩
    · simp only [Builder.exec, Builder.note, Builder.indexOf, hk, hr.base.linksAt hi, Option.bind_eq_bind, Option.bind_some, setAttrs_eq hi.root]
    · rw [set_links]
      split
      · rename_i h; rw [h]; exact ⟨rfl, rfl⟩
      · exact ⟨rfl, rfl⟩
    · have hi' : InSet (b.set i ((b.links i).more a)) m i := ⟨k, hk, hs.find.2 hi⟩
      rw [set_links]
      by_cases he : s = i
      · subst he
        rw [if_pos rfl]
        show p ((b.links s).attrs.or a) = true ↔ _
        rw [hp.or, Bool.or_eq_true]
        constructor
        · rintro (h | h)
          · exact .inl ⟨s, hi.root, rfl, h⟩
          · exact .inr ⟨m, a, rfl, hi', h⟩
        · rintro (⟨r, _, e, h⟩ | ⟨m', a', e, h1, h2⟩)
          · cases e; exact .inl h
          · cases e; exact .inr h2
      · rw [if_neg he]
        constructor
        · intro h; exact .inl ⟨s, hs.root.1 hs', rfl, h⟩
        · rintro (⟨r, _, e, h⟩ | ⟨m', a', e, h1, h2⟩)
          · cases e; exact h
          · cases e; exact absurd (h1.det hi') he
    · simp only [Op.new, reduceCtorEq, or_false]
      exact Iff.rfl
    · intro G σ γ ρ _ hf _
      refine ⟨γ, hf.1, fun v r => ?_⟩
      rintro ⟨k', h1, h2⟩
      exact hf.2 v r ⟨k', h1, hs.find.1 h2⟩

/-- Every request is about a value already there. -/
def Ready : List Op → Prop
  | ops => ∀ pre op post, ops = pre ++ op :: post → ∀ m, op.main = some m → ∃ o ∈ pre, o.new = some m

theorem Ready.init {ops : List Op} {op : Op} (h : Ready (ops ++ [op])) : Ready ops :=
  fun pre o post e => h pre o (post ++ [op]) (by rw [e]; simp)

theorem Ready.last {ops : List Op} {op : Op} (h : Ready (ops ++ [op])) : ∀ m, op.main = some m → ∃ o ∈ ops, o.new = some m :=
  h ops op [] rfl

/-- What a history leads to. -/
structure Inv (ops : List Op) (b : Builder) (cs : List (List Nat)) : Prop where
  rep : Rep b cs
  has : ∀ v, (b.values v).isSome ↔ ∃ o ∈ ops, o.new = some v
  done : ∀ o ∈ ops, o.done b cs
  attrs : ∀ p, Hom p → ∀ s, Root b s → (p (b.links s).attrs = true ↔ ∃ o ∈ ops, ∃ m a, o.notes = some (m, a) ∧ InSet b m s ∧ p a = true)
  fits : ∀ {G : Type} (σ : G → G) (ρ : Node → G), Shift σ → (∀ o ∈ ops, o.ok σ ρ) → ∃ γ, Fits σ γ ρ b cs

theorem notes_main {o : Op} {m : Node} {a : Attr} (h : o.notes = some (m, a)) : o.main = some m := by
  cases o <;> simp_all [Op.notes, Op.main]

theorem run_ok (ops : List Op) (hr : Ready ops) : ∃ b cs, run ops = some b ∧ Inv ops b cs := by
  have ind : ∀ (l : List Op), Ready l.reverse → ∃ b cs, run l.reverse = some b ∧ Inv l.reverse b cs := by
    intro l
    induction l with
    | nil =>
      intro _
      refine ⟨{}, [], rfl, ⟨⟨⟨.nil, fun i => ?_, fun i hi => ?_, fun v i h => ?_⟩, fun c hc => (nomatch hc)⟩, fun v => ?_, fun o ho => (nomatch ho), fun p hp s hs => ?_, fun σ ρ _ _ => ?_⟩⟩
      · constructor
        · intro h; cases h
        · intro h; exact absurd h.1 (by simp)
      · exact absurd hi (by simp)
      · cases h
      · simp
      · exact absurd hs.1 (by simp)
      · exact ⟨fun _ => ρ ⟨0, 0⟩, fun r s ⟨c, hc, _⟩ => (nomatch hc), fun v r ⟨k, h, _⟩ => (nomatch h)⟩
    | cons op l ih =>
      intro hr
      rw [List.reverse_cons] at hr ⊢
      obtain ⟨b, cs, h1, h2⟩ := ih hr.init
      have hhas : ∀ m, op.main = some m → (b.values m).isSome := fun m hm => (h2.has m).2 (hr.last m hm)
      obtain ⟨b', cs', φ, e1, e2, e3, e4, e5, e6, e7, e8, e9⟩ := exec_ok h2.rep op hhas
      have hin : ∀ {v r}, InSet b v r → InSet b' v (φ r) := fun ⟨k, h1, h2⟩ => ⟨k, e3 _ _ h1, e4 _ _ h2⟩
      have hback : ∀ {v s}, (b.values v).isSome → InSet b' v s → ∃ r, InSet b v r ∧ φ r = s := fun hv hs => by
        obtain ⟨r, hr⟩ := h2.rep.inSet hv
        exact ⟨r, hr, (hin hr).det hs⟩
      have hmain : ∀ o ∈ l.reverse, ∀ m, o.main = some m → (b.values m).isSome := by
        intro o ho m hm
        obtain ⟨pre, post, he⟩ := List.append_of_mem ho
        obtain ⟨o', ho', hn⟩ := hr.init pre o post he m hm
        exact (h2.has m).2 ⟨o', by rw [he]; simp [ho'], hn⟩
      have hnew : ∀ o ∈ l.reverse, ∀ m, o.new = some m → (b.values m).isSome := fun o ho m hm => (h2.has m).2 ⟨o, ho, hm⟩
      refine ⟨b', cs', ?_, ⟨e2, fun v => ?_, fun o ho => ?_, fun p hp s hs => ?_, fun σ ρ hσ hok => ?_⟩⟩
      · have : run (l.reverse ++ [op]) = (run l.reverse).bind fun b => [op].foldlM Builder.exec b := List.foldlM_append
        rw [this, h1]
        show ([op].foldlM Builder.exec b) = some b'
        rw [List.foldlM_cons, e1]
        rfl
      · rw [e7, h2.has]
        simp only [List.mem_append, List.mem_singleton]
        constructor
        · rintro (⟨o, h, h'⟩ | h)
          · exact ⟨o, .inl h, h'⟩
          · exact ⟨op, .inr rfl, h⟩
        · rintro ⟨o, h | rfl, h'⟩
          · exact .inl ⟨o, h, h'⟩
          · exact .inr h'
      · rcases List.mem_append.1 ho with ho | ho
        · have hd := h2.done o ho
          cases o with
          | add v => trivial
          | note m a => trivial
          | with_ m t =>
            intro r s h3 h4
            obtain ⟨r', h5, rfl⟩ := hback (hmain _ ho m rfl) h3
            obtain ⟨s', h6, rfl⟩ := hback (hnew _ ho t rfl) h4
            rw [hd r' s' h5 h6]
          | below m t =>
            intro r s h3 h4
            obtain ⟨r', h5, rfl⟩ := hback (hmain _ ho m rfl) h3
            obtain ⟨s', h6, rfl⟩ := hback (hnew _ ho t rfl) h4
            rcases hd r' s' h5 h6 with h | h
            · exact .inl (by rw [h])
            · exact e5 _ _ h
          | above m t =>
            intro r s h3 h4
            obtain ⟨r', h5, rfl⟩ := hback (hmain _ ho m rfl) h3
            obtain ⟨s', h6, rfl⟩ := hback (hnew _ ho t rfl) h4
            rcases hd r' s' h5 h6 with h | h
            · exact .inl (by rw [h])
            · exact e5 _ _ h
        · rw [List.mem_singleton.1 ho]
          exact e8
      · rw [e6 p hp s hs]
        constructor
        · rintro (⟨r, h3, rfl, h4⟩ | ⟨m, a, h3, h4, h5⟩)
          · obtain ⟨o, ho, m, a, h5, h6, h7⟩ := (h2.attrs p hp r h3).1 h4
            exact ⟨o, List.mem_append.2 (.inl ho), m, a, h5, hin h6, h7⟩
          · exact ⟨op, by simp, m, a, h3, h4, h5⟩
        · rintro ⟨o, ho, m, a, h3, h4, h5⟩
          rcases List.mem_append.1 ho with ho | ho
          · left
            obtain ⟨r, h6, rfl⟩ := hback (hmain o ho m (notes_main h3)) h4
            exact ⟨r, h6.root, rfl, (h2.attrs p hp r h6.root).2 ⟨o, ho, m, a, h3, h6, h5⟩⟩
          · rw [List.mem_singleton.1 ho] at h3
            exact .inr ⟨m, a, h3, h4, h5⟩
      · obtain ⟨γ, hγ⟩ := h2.fits σ ρ hσ fun o ho => hok o (List.mem_append.2 (.inl ho))
        exact e9 σ γ ρ hσ hγ (hok op (by simp))
  have := ind ops.reverse
  rw [List.reverse_reverse] at this
  exact this hr

end Phasar.Stratified
