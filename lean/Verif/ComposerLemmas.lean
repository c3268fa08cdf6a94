import Verif.Composer

/-!
# Lemmas about semantic composition
-/

namespace Verif

/-! ## The generator -/

/-- The generator after `k` more names. -/
def Gen.after (g : Gen) (k : Nat) : Gen := ⟨g.number + k, g.issued ++ (List.range k).map fun i => genName (g.number + i + 1)⟩

theorem Gen.after_zero (g : Gen) : g.after 0 = g := by simp [Gen.after]

theorem Gen.after_after (g : Gen) (k m : Nat) : (g.after k).after m = g.after (k + m) := by
  simp only [Gen.after, List.range_add, List.map_append, List.append_assoc, List.map_map, Gen.mk.injEq]
  refine ⟨by omega, ?_⟩
  congr 2
  apply List.map_congr_left
  intro i _
  simp only [Function.comp_apply]
  congr 1
  omega

theorem genNext_run (g : Gen) : genNext g = .ok (g.after 1) (genName (g.number + 1)) := by
  simp [genNext, Gen.after]

/-- The computation changes the generator only by handing out names. -/
def Advances {α : Type} (x : M Gen α) : Prop := ∀ g, match x g with
  | .ok g' _ => ∃ k, g' = g.after k
  | .err g' _ => ∃ k, g' = g.after k
  | .oof => True

theorem advances_pure {α : Type} (a : α) : Advances (pure a : M Gen α) := fun g => ⟨0, (Gen.after_zero g).symm⟩

theorem advances_throw {α : Type} (e : Err) : Advances (M.throw e : M Gen α) := fun g => ⟨0, (Gen.after_zero g).symm⟩

theorem advances_lift {α : Type} (x : Except Err α) : Advances (M.lift x : M Gen α) := by
  cases x with
  | ok a => exact advances_pure a
  | error e => exact advances_throw e

theorem advances_bind {α β : Type} {x : M Gen α} {f : α → M Gen β} (hx : Advances x) (hf : ∀ a, Advances (f a)) :
    Advances (x >>= f) := by
  intro g
  have h1 := hx g
  rw [M.bind_run]
  cases hr : x g with
  | oof => trivial
  | err g' e => rw [hr] at h1; exact h1
  | ok g' a =>
    rw [hr] at h1
    obtain ⟨k, rfl⟩ := h1
    have h2 := hf a (g.after k)
    simp only
    cases hr2 : f a (g.after k) with
    | oof => trivial
    | err g2 e => rw [hr2] at h2; obtain ⟨m, rfl⟩ := h2; exact ⟨k + m, Gen.after_after g k m⟩
    | ok g2 b => rw [hr2] at h2; obtain ⟨m, rfl⟩ := h2; exact ⟨k + m, Gen.after_after g k m⟩

theorem advances_next : Advances genNext := fun g => by rw [genNext_run]; exact ⟨1, rfl⟩

theorem Advances.le {α : Type} {x : M Gen α} (h : Advances x) {g g' : Gen} {a : α} (he : x g = .ok g' a) : g.number ≤ g'.number := by
  have := h g
  rw [he] at this
  obtain ⟨k, rfl⟩ := this
  simp [Gen.after]

theorem advances_consMap (as : List String) (d : Dict String) : Advances (consMap as d) := by
  induction as generalizing d with
  | nil => exact advances_pure d
  | cons a as ih =>
    unfold consMap
    split
    · exact ih d
    · exact advances_bind advances_next fun v => ih _

theorem advances_createMap (r : GRule Attachment) (inc : List String) : Advances (createMap r inc) :=
  advances_bind (advances_lift _) fun _ => advances_consMap _ _

theorem advances_extendArgs (as : List Value) (d : Dict String) : Advances (extendArgs as d) := by
  induction as generalizing d with
  | nil => exact advances_pure d
  | cons a as ih =>
    cases a <;> unfold extendArgs <;> try exact ih d
    split
    · exact advances_bind advances_next fun v => ih _
    · exact ih d

theorem advances_extendAtoms (as : List Value) (d : Dict String) : Advances (extendAtoms as d) := by
  induction as generalizing d with
  | nil => exact advances_pure d
  | cons a as ih => exact advances_bind (advances_lift _) fun _ => advances_bind (advances_extendArgs _ _) fun _ => ih _

theorem advances_extendMap (d : Dict String) (v : Value) : Advances (extendMap d v) := by
  cases v <;> first | exact advances_pure d | exact advances_extendAtoms _ _

mutual
theorem advances_compose : ∀ (t : ParseTree Attachment) (inc : List String), Advances (compose t inc)
  | .node _ cs _ r, inc => by
    unfold compose
    refine advances_bind (advances_createMap _ _) fun d => advances_bind (advances_composeChildren cs _ _ _ _) fun parts => ?_
    split
    · exact advances_throw _
    · exact advances_bind (advances_lift _) fun s => advances_bind (advances_lift _) fun ex => advances_bind (advances_lift _) fun _ =>
        advances_bind (advances_extendMap _ _) fun _ => advances_pure _
theorem advances_composeChildren : ∀ (cs : List (ParseTree Attachment)) (ks : List Constituent) (d : Dict String) (i : Nat)
    (acc : ChildParts), Advances (composeChildren cs ks d i acc)
  | [], _, _, _, _ => advances_pure _
  | _ :: _, [], _, _, _ => by unfold composeChildren; exact advances_pure _
  | .node cat cs form r :: rest, k :: ks, d, i, acc => by
    unfold composeChildren
    split
    · split
      · exact advances_composeChildren rest ks d _ _
      · exact advances_bind (advances_lift _) fun _ => advances_composeChildren rest ks d _ _
    · exact advances_bind (advances_lift _) fun inc => advances_bind (advances_compose (.node cat cs form r) inc) fun _ =>
        advances_composeChildren rest ks d _ _
end

theorem advances_nextVars (as : List Str) : Advances (nextVars as) := by
  induction as with
  | nil => exact advances_pure _
  | cons a as ih => exact advances_bind advances_next fun _ => advances_bind ih fun _ => advances_pure _

theorem advances_composeSentence (t : ParseTree Attachment) : Advances (composeSentence t) := by
  unfold composeSentence
  split
  · exact advances_throw _
  · exact advances_bind (advances_nextVars _) fun _ => advances_bind (advances_compose _ _) fun _ => advances_pure _

theorem genName_injective {m n : Nat} (h : genName m = genName n) : m = n := by
  have := congrArg String.toList h
  simp only [genName, String.toList_ofList, List.cons.injEq, true_and] at this
  exact showNat_injective this

theorem isGenName_genName (n : Nat) : isGenName (genName n) = true := by
  simp [isGenName, genName]

/-! ## Maps -/

/-- The name was handed out between the two numbers. -/
def Fresh (m n : Nat) (v : String) : Prop := ∃ i, m < i ∧ i ≤ n ∧ v = genName i

theorem Fresh.mono {m n m' n' : Nat} {v : String} (h : Fresh m n v) (h1 : m' ≤ m) (h2 : n ≤ n') : Fresh m' n' v := by
  obtain ⟨i, a, b, c⟩ := h; exact ⟨i, by omega, by omega, c⟩

theorem Fresh.disjoint {m n m' n' : Nat} {v : String} (h : Fresh m n v) (h' : Fresh m' n' v) (hle : n ≤ m') : False := by
  obtain ⟨i, a, b, c⟩ := h
  obtain ⟨j, a', b', c'⟩ := h'
  have := genName_injective (c.symm.trans c')
  omega

/-- The name is the `j`-th and does not occur after that: the position that counts when the names are keys set in order. -/
def LastArg (as : List String) (j : Nat) (a : String) : Prop := as[j]? = some a ∧ ∀ k, j < k → as[k]? ≠ some a

theorem LastArg.unique {as : List String} {j k : Nat} {a : String} (h : LastArg as j a) (h' : LastArg as k a) : j = k := by
  rcases Nat.lt_trichotomy j k with hlt | rfl | hlt
  · exact absurd h'.1 (h.2 k hlt)
  · rfl
  · exact absurd h.1 (h'.2 j hlt)

theorem LastArg.exists {as : List String} {a : String} (h : a ∈ as) : ∃ j, LastArg as j a := by
  induction as with
  | nil => simp at h
  | cons b as ih =>
    by_cases hm : a ∈ as
    · obtain ⟨j, h1, h2⟩ := ih hm
      refine ⟨j + 1, by simpa using h1, fun k hk => ?_⟩
      cases k with
      | zero => omega
      | succ k => simpa using h2 k (by omega)
    · simp only [List.mem_cons, hm, or_false] at h
      subst h
      refine ⟨0, by simp, fun k hk => ?_⟩
      cases k with
      | zero => omega
      | succ k =>
        simp only [List.getElem?_cons_succ]
        intro hc
        exact hm (List.mem_of_getElem? hc)

theorem LastArg.mem {as : List String} {j : Nat} {a : String} (h : LastArg as j a) : a ∈ as := List.mem_of_getElem? h.1

theorem anteMap_get {as inc : List String} {d d' : Dict String} (h : anteMap as inc d = .ok d') :
    (∀ a j, LastArg as j a → d'.get a = inc[j]? ∧ (inc[j]?).isSome) ∧ (∀ a, a ∉ as → d'.get a = d.get a) := by
  induction as generalizing inc d with
  | nil =>
    simp only [anteMap, Except.ok.injEq] at h
    subst h
    exact ⟨fun a j hl => by simp [LastArg] at hl, fun _ _ => rfl⟩
  | cons b as ih =>
    cases inc with
    | nil => simp [anteMap] at h
    | cons v inc =>
      simp only [anteMap] at h
      obtain ⟨h1, h2⟩ := ih h
      refine ⟨fun a j hl => ?_, fun a ha => ?_⟩
      · cases j with
        | zero =>
          have hb : b = a := by simpa using hl.1
          subst hb
          have hn : b ∉ as := by
            intro hm
            obtain ⟨k, hk⟩ := LastArg.exists hm
            exact hl.2 (k + 1) (by omega) (by simpa using hk.1)
          rw [h2 b hn, Dict.get_set]
          simp
        | succ j =>
          have := h1 a j ⟨by simpa using hl.1, fun k hk => by simpa using hl.2 (k + 1) (by omega)⟩
          simpa using this
      · simp only [List.mem_cons, not_or] at ha
        rw [h2 a ha.2, Dict.get_set_of_ne _ _ (Ne.symm ha.1)]

/-- What a loop that adds generated names to a map does. -/
structure Grows (d d' : Dict String) (m n : Nat) : Prop where
  keep : ∀ x v, d.get x = some v → d'.get x = some v
  fresh : ∀ x v, d'.get x = some v → d.get x = some v ∨ (d.get x = none ∧ Fresh m n v)
  inj : ∀ x y v, d'.get x = some v → d'.get y = some v → d.get x = none → d.get y = none → x = y

theorem Grows.refl (d : Dict String) (m n : Nat) : Grows d d m n :=
  ⟨fun _ _ h => h, fun _ _ h => .inl h, fun x y v h _ hx _ => by rw [h] at hx; simp at hx⟩

theorem Grows.trans {d d1 d2 : Dict String} {l m n : Nat} (h1 : Grows d d1 l m) (h2 : Grows d1 d2 m n) (hlm : l ≤ m) (hmn : m ≤ n) :
    Grows d d2 l n := by
  refine ⟨fun x v h => h2.keep x v (h1.keep x v h), fun x v h => ?_, fun x y v hx hy hx0 hy0 => ?_⟩
  · rcases h2.fresh x v h with h' | ⟨h', hf⟩
    · rcases h1.fresh x v h' with h'' | ⟨h'', hf⟩
      · exact .inl h''
      · exact .inr ⟨h'', hf.mono (Nat.le_refl _) hmn⟩
    · refine .inr ⟨?_, hf.mono hlm (Nat.le_refl _)⟩
      cases hd : d.get x with
      | none => rfl
      | some u => rw [h1.keep x u hd] at h'; simp at h'
  · rcases h2.fresh x v hx with h' | ⟨h', hf⟩
    · rcases h2.fresh y v hy with k' | ⟨k', kf⟩
      · exact h1.inj x y v h' k' hx0 hy0
      · rcases h1.fresh x v h' with h'' | ⟨_, hf⟩
        · rw [h''] at hx0; simp at hx0
        · exact (hf.disjoint kf (Nat.le_refl _)).elim
    · rcases h2.fresh y v hy with k' | ⟨k', kf⟩
      · rcases h1.fresh y v k' with k'' | ⟨_, kf⟩
        · rw [k''] at hy0; simp at hy0
        · exact (kf.disjoint hf (Nat.le_refl _)).elim
      · exact h2.inj x y v hx hy h' k'

theorem Grows.single (d : Dict String) {a : String} (h : d.get a = none) (g : Gen) :
    Grows d (d.set a (genName (g.number + 1))) g.number (g.after 1).number := by
  refine ⟨fun x v hx => ?_, fun x v hx => ?_, fun x y v hx hy hx0 hy0 => ?_⟩
  · rw [Dict.get_set_of_ne]
    · exact hx
    · rintro rfl; rw [h] at hx; simp at hx
  · rw [Dict.get_set] at hx
    split at hx
    · rename_i e; subst e
      cases hx
      exact .inr ⟨h, g.number + 1, by omega, by simp [Gen.after], rfl⟩
    · exact .inl hx
  · rw [Dict.get_set] at hx hy
    split at hx
    · split at hy
      · rename_i e1 e2; exact e1.symm.trans e2
      · rw [hy] at hy0; simp at hy0
    · rw [hx] at hx0; simp at hx0

theorem consMap_grows {as : List String} {d d' : Dict String} {g g' : Gen} (h : consMap as d g = .ok g' d') :
    Grows d d' g.number g'.number ∧ (∀ a ∈ as, ∃ v, d'.get a = some v) := by
  induction as generalizing d g with
  | nil =>
    simp only [consMap, M.pure_eq_ok] at h
    obtain ⟨rfl, rfl⟩ := h
    exact ⟨Grows.refl _ _ _, by simp⟩
  | cons a as ih =>
    have hadv := (advances_consMap (a :: as) d).le h
    simp only [consMap] at h
    split at h
    · rename_i hh
      obtain ⟨h1, h2⟩ := ih h
      refine ⟨h1, fun b hb => ?_⟩
      simp only [List.mem_cons] at hb
      rcases hb with rfl | hb
      · obtain ⟨v, hv⟩ := (Dict.has_iff _ _).1 hh
        exact ⟨v, h1.keep _ _ hv⟩
      · exact h2 b hb
    · rename_i hh
      rw [M.bind_ok (genNext_run g)] at h
      have hle := (advances_consMap as _).le h
      obtain ⟨h1, h2⟩ := ih h
      have hs := Grows.single d ((Dict.has_false_iff _ _).1 (by simpa using hh)) g
      refine ⟨hs.trans h1 (by simp [Gen.after]) hle, fun b hb => ?_⟩
      simp only [List.mem_cons] at hb
      rcases hb with rfl | hb
      · exact ⟨genName (g.number + 1), h1.keep _ _ (by rw [Dict.get_set]; simp)⟩
      · exact h2 b hb

theorem extendArgs_grows {as : List Value} {d d' : Dict String} {g g' : Gen} (h : extendArgs as d g = .ok g' d') :
    Grows d d' g.number g'.number ∧ (∀ x, Value.var x ∈ as → (∃ v, d'.get x = some v) ∨ isGenName x = true) ∧
      ∀ x v, d'.get x = some v → d.get x = none → isGenName x = false := by
  induction as generalizing d g with
  | nil =>
    simp only [extendArgs, M.pure_eq_ok] at h
    obtain ⟨rfl, rfl⟩ := h
    exact ⟨Grows.refl _ _ _, by simp, fun x v h h' => by rw [h] at h'; simp at h'⟩
  | cons a as ih =>
    cases a with
    | var x =>
      simp only [extendArgs] at h
      split at h
      · rename_i hh
        simp only [Bool.and_eq_true, Bool.not_eq_true'] at hh
        rw [M.bind_ok (genNext_run g)] at h
        have hle := (advances_extendArgs as _).le h
        obtain ⟨h1, h2, h3⟩ := ih h
        have hs := Grows.single d ((Dict.has_false_iff _ _).1 hh.1) g
        refine ⟨hs.trans h1 (by simp [Gen.after]) hle, fun y hy => ?_, fun y v hy hy0 => ?_⟩
        · simp only [List.mem_cons, Value.var.injEq] at hy
          rcases hy with rfl | hy
          · exact .inl ⟨genName (g.number + 1), h1.keep _ _ (by rw [Dict.get_set]; simp)⟩
          · exact h2 y hy
        · by_cases hxy : x = y
          · subst hxy; exact hh.2
          · exact h3 y v hy (by rw [Dict.get_set_of_ne _ _ hxy]; exact hy0)
      · rename_i hh
        obtain ⟨h1, h2, h3⟩ := ih h
        refine ⟨h1, fun y hy => ?_, h3⟩
        simp only [List.mem_cons, Value.var.injEq] at hy
        rcases hy with rfl | hy
        · simp only [Bool.and_eq_true, Bool.not_eq_true', not_and, Bool.not_eq_false] at hh
          cases hd : d.has y with
          | true =>
            obtain ⟨v, hv⟩ := (Dict.has_iff _ _).1 hd
            exact .inl ⟨v, h1.keep _ _ hv⟩
          | false => exact .inr (hh hd)
        · exact h2 y hy
    | _ =>
      simp only [extendArgs] at h
      obtain ⟨h1, h2, h3⟩ := ih h
      refine ⟨h1, fun y hy => h2 y ?_, h3⟩
      simpa using hy

theorem extendAtoms_grows {as : List Value} {d d' : Dict String} {g g' : Gen} (h : extendAtoms as d g = .ok g' d') :
    Grows d d' g.number g'.number ∧
      (∀ a ∈ as, ∃ items, iterItems a = .ok items ∧ ∀ x, Value.var x ∈ items → (∃ v, d'.get x = some v) ∨ isGenName x = true) ∧
      ∀ x v, d'.get x = some v → d.get x = none → isGenName x = false := by
  induction as generalizing d g with
  | nil =>
    simp only [extendAtoms, M.pure_eq_ok] at h
    obtain ⟨rfl, rfl⟩ := h
    exact ⟨Grows.refl _ _ _, by simp, fun x v h h' => by rw [h] at h'; simp at h'⟩
  | cons a as ih =>
    simp only [extendAtoms, M.bind_eq_ok, M.lift_eq_ok] at h
    obtain ⟨g1, items, ⟨rfl, hi⟩, g2, d2, h2, h3⟩ := h
    obtain ⟨a1, a2, a3⟩ := extendArgs_grows h2
    obtain ⟨b1, b2, b3⟩ := ih h3
    refine ⟨a1.trans b1 ((advances_extendArgs _ _).le h2) ((advances_extendAtoms _ _).le h3), fun c hc => ?_, fun x v hx hx0 => ?_⟩
    · simp only [List.mem_cons] at hc
      rcases hc with rfl | hc
      · refine ⟨items, hi, fun x hx => ?_⟩
        rcases a2 x hx with ⟨v, hv⟩ | hg
        · exact .inl ⟨v, b1.keep _ _ hv⟩
        · exact .inr hg
      · exact b2 c hc
    · cases hd : d2.get x with
      | none => exact b3 x v hx hd
      | some u => exact a3 x u hd hx0

theorem extendMap_grows {s : Value} {d d' : Dict String} {g g' : Gen} (h : extendMap d s g = .ok g' d') :
    Grows d d' g.number g'.number ∧
      (∀ as, s = .list as →
        ∀ a ∈ as, ∃ items, iterItems a = .ok items ∧ ∀ x, Value.var x ∈ items → (∃ v, d'.get x = some v) ∨ isGenName x = true) ∧
      ∀ x v, d'.get x = some v → d.get x = none → isGenName x = false := by
  cases s with
  | list as =>
    simp only [extendMap] at h
    obtain ⟨h1, h2, h3⟩ := extendAtoms_grows h
    exact ⟨h1, fun as' e => by cases e; exact h2, h3⟩
  | _ =>
    simp only [extendMap, M.pure_eq_ok] at h
    obtain ⟨rfl, rfl⟩ := h
    exact ⟨Grows.refl _ _ _, by simp, fun x v h h' => by rw [h] at h'; simp at h'⟩

/-- What `createMap` makes. -/
theorem createMap_spec {r : GRule Attachment} {inc : List String} {d : Dict String} {g g' : Gen} (h : createMap r inc g = .ok g' d) :
    (∀ a j, LastArg (argNames r.ante) j a → ∃ v, inc[j]? = some v ∧ d.get a = some v) ∧
    (∀ x v, d.get x = some v → x ∉ argNames r.ante → Fresh g.number g'.number v ∧ ∃ k ∈ r.cons, x ∈ argNames k) ∧
    (∀ x y v, d.get x = some v → d.get y = some v → x ∉ argNames r.ante → y ∉ argNames r.ante → x = y) ∧
    (∀ k ∈ r.cons, ∀ x ∈ argNames k, ∃ v, d.get x = some v) := by
  simp only [createMap, M.bind_eq_ok, M.lift_eq_ok] at h
  obtain ⟨g1, d0, ⟨rfl, h0⟩, h1⟩ := h
  obtain ⟨a1, a2⟩ := anteMap_get h0
  obtain ⟨b1, b2⟩ := consMap_grows h1
  have hnone : ∀ x, x ∉ argNames r.ante → d0.get x = none := fun x hx => by rw [a2 x hx]; rfl
  have honly : ∀ (as : List String) (d d' : Dict String) (g g' : Gen), consMap as d g = .ok g' d' → ∀ x v, d'.get x = some v →
      d.get x = none → x ∈ as := by
    intro as
    induction as with
    | nil =>
      intro d d' g g' h x v hx hx0
      simp only [consMap, M.pure_eq_ok] at h
      obtain ⟨rfl, rfl⟩ := h
      rw [hx] at hx0; simp at hx0
    | cons a as ih =>
      intro d d' g g' h x v hx hx0
      simp only [consMap] at h
      split at h
      · exact List.mem_cons_of_mem _ (ih _ _ _ _ h x v hx hx0)
      · rw [M.bind_ok (genNext_run g)] at h
        by_cases hax : a = x
        · subst hax; simp
        · exact List.mem_cons_of_mem _ (ih _ _ _ _ h x v hx (by rw [Dict.get_set_of_ne _ _ hax]; exact hx0))
  refine ⟨fun a j hl => ?_, fun x v hx hn => ⟨?_, ?_⟩, fun x y v hx hy hnx hny => b1.inj x y v hx hy (hnone x hnx) (hnone y hny), fun k hk x hx => ?_⟩
  · obtain ⟨h1, h2⟩ := a1 a j hl
    obtain ⟨v, hv⟩ := Option.isSome_iff_exists.1 h2
    exact ⟨v, hv, b1.keep _ _ (by rw [h1, hv])⟩
  · rcases b1.fresh x v hx with h | ⟨_, h⟩
    · rw [hnone x hn] at h; simp at h
    · exact h
  · have := honly _ _ _ _ _ h1 x v hx (hnone x hn)
    simpa [List.mem_flatMap] using this
  · exact b2 x (by simp only [List.mem_flatMap]; exact ⟨k, hk, hx⟩)

theorem mapAll_get {d : Dict String} {as inc : List String} (h : mapAll d as = .ok inc) :
    inc.length = as.length ∧ ∀ (j : Nat) a, as[j]? = some a → ∃ v, d.get a = some v ∧ inc[j]? = some v := by
  induction as generalizing inc with
  | nil => simp only [mapAll, Except.ok.injEq] at h; subst h; simp
  | cons a as ih =>
    simp only [mapAll] at h
    split at h
    · simp at h
    · rename_i v hv
      split at h
      · simp at h
      · rename_i vs hvs
        cases h
        obtain ⟨h1, h2⟩ := ih hvs
        refine ⟨by simp [h1], fun j b hj => ?_⟩
        cases j with
        | zero => simp only [List.getElem?_cons_zero, Option.some.injEq] at hj; subst hj; exact ⟨v, hv, by simp⟩
        | succ j => simpa using h2 j b (by simpa using hj)

end Verif
