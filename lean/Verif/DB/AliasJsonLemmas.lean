import Verif.DB.AliasJson
import Verif.DB.IRDBLemmas
import Verif.Alias.Lemmas
/-! # Lemmas about loading alias sets -/
namespace Phasar.DB

open Phasar Phasar.StringID
open Phasar.Alias (St Inv Clos Alloc acquire ins addr aliasSet attach addSingleton)

/-- The values of a set that have an id. -/
def named (db : IRDB) (S : List Val) : List Val := S.filter (fun v => getMetaDataID db v ≠ [45, 49])

/-- The pairs that connect the first element with the others. -/
def star : List Val → List (Val × Val)
  | [] => []
  | v :: vs => vs.map (fun w => (v, w))

/-- A value without id, or whose id leads back to it. -/
def Good (db : IRDB) (v : Val) : Prop := getMetaDataID db v = [45, 49] ∨ fromMetaDataId db (getMetaDataID db v) = some v

theorem idsOf_eq (db : IRDB) (S : List Val) : idsOf db S = (named db S).map (getMetaDataID db) := by
  unfold idsOf named
  rw [List.filter_map]; rfl

theorem mem_named {db : IRDB} {S : List Val} {v : Val} : v ∈ named db S ↔ v ∈ S ∧ getMetaDataID db v ≠ [45, 49] := by
  unfold named; simp

theorem assign_eq {s : St Val} {b : Nat} {v : Val} (h : s.al v = none) : assign s b v = attach s b v := by
  unfold assign attach; rw [h]

theorem assign_all (vs : List Val) : ∀ {s : St Val} {K : List Val} {P : List (Val × Val)} {r : Val} {b : Nat},
    Inv s K P → s.al r = some b → (∀ v ∈ vs, v ∉ K) → vs.Nodup →
    ∃ s' Q, vs.foldlM (fun s v => assign s b v) s = some s' ∧ Inv s' (vs.reverse ++ K) Q ∧
      (∀ p, p ∈ Q ↔ p ∈ vs.map (fun w => (r, w)) ∨ p ∈ P) := by
  induction vs with
  | nil => intro s K P r b hi _ _ _; exact ⟨s, P, rfl, by simpa using hi, by simp⟩
  | cons v vs ih =>
    intro s K P r b hi hr hK hn
    have hv : s.al v = none := by
      cases h : s.al v with
      | none => rfl
      | some c => exact absurd ((hi.known v).1 ⟨c, h⟩) (hK v List.mem_cons_self)
    rw [List.nodup_cons] at hn
    obtain ⟨s1, h1, h2, h3⟩ := Alias.attach_spec hi hr v
    obtain ⟨s', Q, g1, g2, g3⟩ := ih h2 (h3 r b hr) (fun w hw hm => by
      rcases List.mem_cons.1 hm with e | e
      · subst e; exact hn.1 hw
      · exact hK w (List.mem_cons_of_mem _ hw) e) hn.2
    refine ⟨s', Q, by rw [List.foldlM_cons, assign_eq hv, h1]; exact g1, by simpa using g2, fun p => ?_⟩
    rw [g3 p]
    simp only [List.map_cons, List.mem_cons]
    constructor
    · rintro (h | h | h)
      · exact .inl (.inr h)
      · exact .inl (.inl h)
      · exact .inr h
    · rintro ((h | h) | h)
      · exact .inr (.inl h)
      · exact .inl h
      · exact .inr (.inr h)

theorem foldlM_load {db : IRDB} (b : Nat) (vs : List Val) : ∀ (s : St Val), (∀ v ∈ vs, fromMetaDataId db (getMetaDataID db v) = some v) →
    (vs.map (getMetaDataID db)).foldlM (loadOne db b) s = vs.foldlM (fun s v => assign s b v) s := by
  induction vs with
  | nil => intro s _; rfl
  | cons v vs ih =>
    intro s h
    rw [List.map_cons, List.foldlM_cons, List.foldlM_cons]
    have : loadOne db b s (getMetaDataID db v) = assign s b v := by
      unfold loadOne; rw [h v List.mem_cons_self]
    rw [this]
    cases assign s b v with
    | none => rfl
    | some s1 => exact ih s1 (fun w hw => h w (List.mem_cons_of_mem _ hw))

theorem loadSet_ok {db : IRDB} {fresh : St Val → Nat} (hf : Alloc fresh) {s : St Val} {K : List Val} {P : List (Val × Val)}
    (hi : Inv s K P) {v : Val} {vs : List Val} (hg : ∀ w ∈ v :: vs, fromMetaDataId db (getMetaDataID db w) = some w)
    (hK : ∀ w ∈ v :: vs, w ∉ K) (hn : (v :: vs).Nodup) :
    ∃ s' Q, loadSet db fresh s ((v :: vs).map (getMetaDataID db)) = some s' ∧ Inv s' ((v :: vs).reverse ++ K) Q ∧
      (∀ p, p ∈ Q ↔ p ∈ star (v :: vs) ∨ p ∈ P) := by
  obtain ⟨s1, h1, h2, h3⟩ := Alias.addSingleton_spec hf hi v
  have hv : s.al v = none := by
    cases h : s.al v with
    | none => rfl
    | some c => exact absurd ((hi.known v).1 ⟨c, h⟩) (hK v List.mem_cons_self)
  rw [List.nodup_cons] at hn
  unfold addSingleton at h1
  rw [hv] at h1
  simp only at h1
  unfold loadSet
  cases ha : acquire s (fresh s) with
  | none => rw [ha] at h1; cases h1
  | some r =>
    rw [ha] at h1
    simp only [Option.bind_some] at h1 ⊢
    have h4 : assign r.1 r.2 v = some s1 := by
      rw [← h1]
      unfold assign
      cases hb : r.1.boxes[r.2]? with
      | none => rfl
      | some a =>
        simp only [Option.bind_some]
        cases r.1.sets a with
        | none => rfl
        | some S => rfl
    have h5 : s1.al v = some r.2 := by
      unfold assign at h4
      cases hb : r.1.boxes[r.2]? with
      | none => rw [hb] at h4; cases h4
      | some a =>
        rw [hb] at h4
        simp only [Option.bind_some] at h4
        cases hS : r.1.sets a with
        | none => rw [hS] at h4; cases h4
        | some S =>
          rw [hS] at h4
          simp only [Option.map_some, Option.some.injEq] at h4
          rw [← h4]
          simp [St.put, St.setAl]
    obtain ⟨s', Q, g1, g2, g3⟩ := assign_all vs h2 h5 (fun w hw hm => by
      rcases List.mem_cons.1 hm with e | e
      · subst e; exact hn.1 hw
      · exact hK w (List.mem_cons_of_mem _ hw) e) hn.2
    refine ⟨s', Q, ?_, by simpa using g2, g3⟩
    rw [foldlM_load r.2 (v :: vs) r.1 hg, List.foldlM_cons, h4]
    exact g1

/-- Loading disjoint sets of values whose ids lead back to them. -/
theorem load_ok {db : IRDB} {fresh : St Val → Nat} (hf : Alloc fresh) (Ls : List (List Val)) :
    ∀ {s : St Val} {K : List Val} {P : List (Val × Val)}, Inv s K P → (∀ L ∈ Ls, L ≠ []) →
    (∀ L ∈ Ls, ∀ w ∈ L, fromMetaDataId db (getMetaDataID db w) = some w) → (∀ L ∈ Ls, ∀ w ∈ L, w ∉ K) → (Ls.flatten).Nodup →
    ∃ s' K' Q, (Ls.map (fun L => L.map (getMetaDataID db))).foldlM (loadSet db fresh) s = some s' ∧ Inv s' K' Q ∧
      (∀ v, v ∈ K' ↔ v ∈ Ls.flatten ∨ v ∈ K) ∧ (∀ p, p ∈ Q ↔ (∃ L ∈ Ls, p ∈ star L) ∨ p ∈ P) := by
  induction Ls with
  | nil => intro s K P hi _ _ _ _; exact ⟨s, K, P, rfl, hi, by simp, by simp⟩
  | cons L Ls ih =>
    intro s K P hi hne hg hK hn
    rw [List.flatten_cons, List.nodup_append] at hn
    obtain ⟨n1, n2, n3⟩ := hn
    cases L with
    | nil => exact absurd rfl (hne [] List.mem_cons_self)
    | cons v vs =>
      obtain ⟨s1, Q1, h1, h2, h3⟩ := loadSet_ok hf hi (hg _ List.mem_cons_self) (hK _ List.mem_cons_self) n1
      obtain ⟨s', K', Q, g1, g2, g3, g4⟩ := ih h2 (fun L hL => hne L (List.mem_cons_of_mem _ hL))
        (fun L hL => hg L (List.mem_cons_of_mem _ hL)) (fun L hL w hw hm => by
          rcases List.mem_append.1 hm with e | e
          · exact n3 w (List.mem_reverse.1 e) w (List.mem_flatten.2 ⟨L, hL, hw⟩) rfl
          · exact hK L (List.mem_cons_of_mem _ hL) w hw e) n2
      refine ⟨s', K', Q, by rw [List.map_cons, List.foldlM_cons, h1]; exact g1, g2, fun w => ?_, fun p => ?_⟩
      · rw [g3 w, List.mem_append, List.mem_reverse, List.flatten_cons, List.mem_append]
        constructor
        · rintro (h | h | h)
          · exact .inl (.inr h)
          · exact .inl (.inl h)
          · exact .inr h
        · rintro ((h | h) | h)
          · exact .inr (.inl h)
          · exact .inl h
          · exact .inr (.inr h)
      · rw [g4 p, h3 p]
        constructor
        · rintro (⟨L, hL, h⟩ | h | h)
          · exact .inl ⟨L, List.mem_cons_of_mem _ hL, h⟩
          · exact .inl ⟨_, List.mem_cons_self, h⟩
          · exact .inr h
        · rintro (⟨L, hL, h⟩ | h)
          · rcases List.mem_cons.1 hL with e | e
            · subst e; exact .inr (.inl h)
            · exact .inl ⟨L, e, h⟩
          · exact .inr (.inr h)

/-- The sets that are saved, as values. -/
def savedSets (db : IRDB) (s : St Val) (owned : List Nat) : List (List Val) :=
  (owned.map (fun a => named db ((s.sets a).getD []))).filter (fun L => L ≠ [])

theorem setsJson_ok {db : IRDB} {s : St Val} (owned : List Nat) (h : ∀ a ∈ owned, s.sets a ≠ none) :
    setsJson db s owned = some (if savedSets db s owned = [] then none
      else some ((savedSets db s owned).map (fun L => L.map (getMetaDataID db)))) := by
  have key : ∀ (owned : List Nat) (j : Option (List (List Str))), (∀ a ∈ owned, s.sets a ≠ none) →
      owned.foldlM (fun j a => (s.sets a).map (fun S => if idsOf db S = [] then j else push j (idsOf db S))) j =
        some (if savedSets db s owned = [] then j
          else some (j.getD [] ++ (savedSets db s owned).map (fun L => L.map (getMetaDataID db)))) := by
    intro owned
    induction owned with
    | nil => intro j _; simp [savedSets]
    | cons a owned ih =>
      intro j h
      cases hS : s.sets a with
      | none => exact absurd hS (h a List.mem_cons_self)
      | some S =>
        rw [List.foldlM_cons, hS]
        simp only [Option.map_some, Option.bind_eq_bind, Option.bind_some]
        rw [ih _ (fun b hb => h b (List.mem_cons_of_mem _ hb)), idsOf_eq]
        by_cases hn : named db S = []
        · have : savedSets db s (a :: owned) = savedSets db s owned := by
            simp [savedSets, hS, hn]
          rw [this]
          simp [hn]
        · have : savedSets db s (a :: owned) = named db S :: savedSets db s owned := by
            simp [savedSets, hS, hn]
          rw [this]
          by_cases hr : savedSets db s owned = []
          · simp [hn, hr, push]
          · simp [hn, hr, push]
  have := key owned none h
  unfold setsJson
  rw [this]
  simp

theorem fnsJson (done : List Fun) : ∀ j : Option (List Str), done.foldl (fun j f => push j f.name) j =
    if done = [] then j else some (j.getD [] ++ done.map Fun.name) := by
  induction done with
  | nil => intro j; simp
  | cons f done ih =>
    intro j
    rw [List.foldl_cons, ih]
    by_cases h : done = []
    · simp [h, push]
    · simp [h, push]

theorem saved_nodup {db : IRDB} {s : St Val} {K : List Val} {P : List (Val × Val)} (hi : Inv s K P) (owned : List Nat)
    (hn : owned.Nodup) : ((savedSets db s owned).flatten).Nodup := by
  induction owned with
  | nil => simp [savedSets]
  | cons a owned ih =>
    rw [List.nodup_cons] at hn
    have hsub : ∀ v ∈ (savedSets db s owned).flatten, ∃ b ∈ owned, ∃ S, s.sets b = some S ∧ v ∈ S := by
      intro v hv
      simp only [savedSets, List.mem_flatten, List.mem_filter, List.mem_map] at hv
      obtain ⟨L, ⟨⟨b, hb, rfl⟩, _⟩, hv⟩ := hv
      cases hS : s.sets b with
      | none => rw [hS] at hv; simp [named] at hv
      | some S => rw [hS] at hv; exact ⟨b, hb, S, hS, (mem_named.1 hv).1⟩
    by_cases he : named db ((s.sets a).getD []) = []
    · have : savedSets db s (a :: owned) = savedSets db s owned := by simp [savedSets, he]
      rw [this]; exact ih hn.2
    · have : savedSets db s (a :: owned) = named db ((s.sets a).getD []) :: savedSets db s owned := by simp [savedSets, he]
      rw [this, List.flatten_cons, List.nodup_append]
      cases hS : s.sets a with
      | none => rw [hS] at he; simp [named] at he
      | some S =>
        refine ⟨(hi.nodup a S hS).sublist List.filter_sublist, ih hn.2, ?_⟩
        rintro x hx y hy rfl
        obtain ⟨b, hb, S', h1, h2⟩ := hsub x hy
        have e1 := hi.cls a S x hS (mem_named.1 hx).1
        have e2 := hi.cls b S' x h1 h2
        rw [e1] at e2
        injection e2 with e2
        subst e2
        exact hn.1 hb

theorem star_mem {L : List Val} {p : Val × Val} (h : p ∈ star L) : p.1 ∈ L ∧ p.2 ∈ L := by
  cases L with
  | nil => cases h
  | cons v vs =>
    simp only [star, List.mem_map] at h
    obtain ⟨w, hw, rfl⟩ := h
    exact ⟨List.mem_cons_self, List.mem_cons_of_mem _ hw⟩

theorem star_clos {L : List Val} {Q : List (Val × Val)} (h : ∀ p ∈ star L, p ∈ Q) {u v : Val} (hu : u ∈ L) (hv : v ∈ L) : Clos Q u v := by
  cases L with
  | nil => cases hu
  | cons r vs =>
    have key : ∀ x ∈ r :: vs, Clos Q r x := by
      intro x hx
      rcases List.mem_cons.1 hx with e | e
      · subst e; exact .refl _
      · exact .pair (h _ (List.mem_map.2 ⟨x, e, rfl⟩))
    exact (key u hu).symm.trans (key v hv)

/-- What loading what was saved gives. -/
theorem reload_ok {db : IRDB} {fresh : St Val → Nat} (hf : Alloc fresh) {s : St Val} {K : List Val} {P : List (Val × Val)} (hi : Inv s K P)
    (owned : List Nat) (hn : owned.Nodup) (ho : ∀ a, a ∈ owned ↔ s.sets a ≠ none) (hg : ∀ v ∈ K, Good db v)
    (hex : ∃ v ∈ K, getMetaDataID db v ≠ [45, 49]) (done : List Fun) (hd : done ≠ [])
    (hfn : ∀ f ∈ done, getFunction db f.name = some f) :
    ∃ j s' K' Q, getAsJson db s owned done = some j ∧ load db fresh j = some (s', done) ∧ Inv s' K' Q ∧
      (∀ v, v ∈ K' ↔ v ∈ K ∧ getMetaDataID db v ≠ [45, 49]) ∧
      ∀ u v, u ∈ K' → v ∈ K' → (Clos Q u v ↔ Clos P u v) := by
  have hmem : ∀ a S v, s.sets a = some S → v ∈ S → v ∈ K := fun a S v h1 h2 => hi.addr_known (hi.cls a S v h1 h2)
  have hsv : ∀ L, L ∈ savedSets db s owned ↔ ∃ a S, s.sets a = some S ∧ L = named db S ∧ L ≠ [] := by
    intro L
    simp only [savedSets, List.mem_filter, List.mem_map, decide_eq_true_eq]
    constructor
    · rintro ⟨⟨a, ha, rfl⟩, h2⟩
      cases hS : s.sets a with
      | none => rw [hS] at h2; simp [named] at h2
      | some S => exact ⟨a, S, hS, rfl, by rw [hS] at h2; simpa using h2⟩
    · rintro ⟨a, S, hS, rfl, hne⟩
      exact ⟨⟨a, (ho a).2 (by rw [hS]; simp), by rw [hS]; rfl⟩, hne⟩
  have hex' : savedSets db s owned ≠ [] := by
    obtain ⟨v, hv, hid⟩ := hex
    obtain ⟨b, a, S, h1, h2, h3, h4, h5⟩ := hi.known_addr hv
    have hm : v ∈ named db S := mem_named.2 ⟨h4, hid⟩
    have : named db S ∈ savedSets db s owned := (hsv _).2 ⟨a, S, h3, rfl, List.ne_nil_of_mem hm⟩
    exact List.ne_nil_of_mem this
  obtain ⟨s', K', Q, g1, g2, g3, g4⟩ := load_ok (db := db) hf (savedSets db s owned) (Alias.inv_empty)
    (fun L hL => by obtain ⟨_, _, _, _, h⟩ := (hsv L).1 hL; exact h)
    (fun L hL w hw => by
      obtain ⟨a, S, h1, rfl, _⟩ := (hsv L).1 hL
      obtain ⟨h2, h3⟩ := mem_named.1 hw
      rcases hg w (hmem a S w h1 h2) with h | h
      · exact absurd h h3
      · exact h)
    (fun L _ w _ h => by cases h) (saved_nodup hi owned hn)
  have hK' : ∀ v, v ∈ K' ↔ v ∈ K ∧ getMetaDataID db v ≠ [45, 49] := by
    intro v
    rw [g3 v]
    constructor
    · rintro (h | h)
      · obtain ⟨L, hL, hv⟩ := List.mem_flatten.1 h
        obtain ⟨a, S, h1, rfl, _⟩ := (hsv L).1 hL
        obtain ⟨h2, h3⟩ := mem_named.1 hv
        exact ⟨hmem a S v h1 h2, h3⟩
      · cases h
    · rintro ⟨hv, hid⟩
      obtain ⟨b, a, S, h1, h2, h3, h4, h5⟩ := hi.known_addr hv
      have hm : v ∈ named db S := mem_named.2 ⟨h4, hid⟩
      exact .inl (List.mem_flatten.2 ⟨_, (hsv _).2 ⟨a, S, h3, rfl, List.ne_nil_of_mem hm⟩, hm⟩)
  refine ⟨⟨some ((savedSets db s owned).map (fun L => L.map (getMetaDataID db))), some (done.map Fun.name)⟩, s', K', Q, ?_, ?_, g2, hK', ?_⟩
  · unfold getAsJson
    rw [setsJson_ok owned (fun a ha => (ho a).1 ha), if_neg hex', fnsJson, if_neg hd]
    rfl
  · unfold load
    simp only [g1, Option.map_some]
    have : (done.map Fun.name).filterMap (getFunction db) = done := by
      have : ∀ l : List Fun, (∀ f ∈ l, getFunction db f.name = some f) → (l.map Fun.name).filterMap (getFunction db) = l := by
        intro l
        induction l with
        | nil => intro _; rfl
        | cons f l ih =>
          intro h
          rw [List.map_cons, List.filterMap_cons, h f List.mem_cons_self]
          simp only
          rw [ih (fun g hg => h g (List.mem_cons_of_mem _ hg))]
      exact this done hfn
    rw [this]
  · intro u v hu hv
    constructor
    · intro hc
      refine hc.lift (fun a b hab => ?_)
      rcases (g4 (a, b)).1 hab with ⟨L, hL, h⟩ | h
      · obtain ⟨a', S, h1, rfl, _⟩ := (hsv L).1 hL
        obtain ⟨e1, e2⟩ := star_mem h
        exact hi.snd a' S a b h1 (mem_named.1 e1).1 (mem_named.1 e2).1
      · cases h
    · intro hc
      obtain ⟨ku, iu⟩ := (hK' u).1 hu
      obtain ⟨kv, iv⟩ := (hK' v).1 hv
      obtain ⟨b, a, S, h1, h2, h3, h4, h5⟩ := hi.known_addr ku
      have := hi.same hc
      rw [h5] at this
      obtain ⟨S', h6, h7⟩ := hi.addr_mem this.symm
      rw [h3] at h6
      cases h6
      have m1 : u ∈ named db S := mem_named.2 ⟨h4, iu⟩
      have m2 : v ∈ named db S := mem_named.2 ⟨h7, iv⟩
      exact star_clos (L := named db S) (fun p hp => (g4 p).2 (.inl ⟨_, (hsv _).2 ⟨a, S, h3, rfl, List.ne_nil_of_mem m1⟩, hp⟩)) m1 m2

end Phasar.DB
