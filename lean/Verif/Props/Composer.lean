import Verif.ComposerLinks

/-!
# C42, C43: variables of composed sentences
-/

namespace Verif

/-! ## C42 -/

/-- The generator after a history of sentences, some of which may have failed: the composer goes on with the generator it has. -/
def afterSentences : List (ParseTree Attachment) → Gen → Gen
  | [], g => g
  | t :: ts, g => afterSentences ts (match composeSentence t g with
    | .ok g' _ => g'
    | .err g' _ => g'
    | .oof => g)

theorem afterSentences_after (ts : List (ParseTree Attachment)) (g : Gen) : ∃ k, afterSentences ts g = g.after k := by
  induction ts generalizing g with
  | nil => exact ⟨0, (Gen.after_zero g).symm⟩
  | cons t ts ih =>
    simp only [afterSentences]
    have h := advances_composeSentence t g
    cases hr : composeSentence t g with
    | oof => exact ih g
    | ok g' a =>
      rw [hr] at h
      obtain ⟨k, rfl⟩ := h
      obtain ⟨m, hm⟩ := ih (g.after k)
      exact ⟨k + m, by rw [hm, Gen.after_after]⟩
    | err g' a =>
      rw [hr] at h
      obtain ⟨k, rfl⟩ := h
      obtain ⟨m, hm⟩ := ih (g.after k)
      exact ⟨k + m, by rw [hm, Gen.after_after]⟩

/-- **C42** Over any history of composed sentences, all names handed out are pairwise different and start with the prefix. -/
theorem C42_distinct (ts : List (ParseTree Attachment)) :
    (afterSentences ts Gen.init).issued.Nodup ∧ ∀ v ∈ (afterSentences ts Gen.init).issued, v.toList.head? = some '$' := by
  obtain ⟨k, hk⟩ := afterSentences_after ts Gen.init
  rw [hk]
  simp only [Gen.after, Gen.init, List.nil_append, Nat.zero_add]
  constructor
  · unfold List.Nodup
    rw [List.pairwise_map]
    refine List.Pairwise.imp ?_ (List.nodup_range (n := k))
    intro i j hij he
    have := genName_injective he
    omega
  · intro v hv
    obtain ⟨i, _, rfl⟩ := List.mem_map.1 hv
    simp [genName]

theorem nextVars_roots {as : List Str} {g g' : Gen} {vs : List String} (h : nextVars as g = .ok g' vs) :
    g'.number = g.number + as.length ∧ vs.length = as.length ∧ ∀ (j : Nat) v, vs[j]? = some v → v = genName (g.number + j + 1) := by
  induction as generalizing g vs with
  | nil =>
    simp only [nextVars, M.pure_eq_ok] at h
    obtain ⟨rfl, rfl⟩ := h
    simp
  | cons a as ih =>
    simp only [nextVars] at h
    rw [M.bind_ok (genNext_run g)] at h
    simp only [M.bind_eq_ok, M.pure_eq_ok] at h
    obtain ⟨g1, us, h1, rfl, rfl⟩ := h
    obtain ⟨a1, a2, a3⟩ := ih h1
    refine ⟨by simp only [Gen.after, List.length_cons] at a1 ⊢; omega, by simp [a2], fun j v hj => ?_⟩
    cases j with
    | zero => simp only [List.getElem?_cons_zero, Option.some.injEq] at hj; rw [← hj]
    | succ j =>
      have := a3 j v (by simpa using hj)
      rw [this]
      simp only [Gen.after]
      rw [show g.number + 1 + j + 1 = g.number + (j + 1) + 1 by omega]

/-- What is known of a sentence that was composed. -/
theorem composeSentence_parts {t : ParseTree Attachment} {g g' : Gen} {roots : List String} {c : Composed}
    (h : composeSentence t g = .ok g' (roots, c)) : ∃ g1, nextVars t.rule.ante.args g = .ok g1 roots ∧ compose t roots g1 = .ok g' c ∧
      MapsOk t roots g1.number g'.number c.maps := by
  unfold composeSentence at h
  split at h
  · simp at h
  · simp only [M.bind_eq_ok, M.pure_eq_ok, Prod.mk.injEq] at h
    obtain ⟨g1, roots', h1, g2, c', h2, rfl, rfl, rfl⟩ := h
    obtain ⟨a1, a2, a3⟩ := nextVars_roots h1
    refine ⟨g1, h1, h2, compose_maps t roots' g1 _ c' (fun j v hj => ?_) h2⟩
    have hlt : j < roots'.length := (List.getElem?_eq_some_iff.1 hj).1
    exact ⟨g.number + j + 1, by omega, by omega, a3 j v hj⟩

/-- **C42** The root variables of a sentence and all variables it uses for the formal variables of its nodes were not handed
out before. -/
theorem C42_fresh {t : ParseTree Attachment} {g g' : Gen} {roots : List String} {c : Composed}
    (h : composeSentence t g = .ok g' (roots, c)) :
    (∀ v ∈ roots, Fresh g.number g'.number v) ∧ ∀ p d, (p, d) ∈ c.maps → ∀ x v, d.get x = some v → Fresh g.number g'.number v := by
  obtain ⟨g1, h1, h2, hm⟩ := composeSentence_parts h
  obtain ⟨a1, a2, a3⟩ := nextVars_roots h1
  have hle := (advances_compose _ _).le h2
  have hroots : ∀ v ∈ roots, Fresh g.number g'.number v := by
    intro v hv
    obtain ⟨j, hj⟩ := List.getElem?_of_mem hv
    have hlt : j < roots.length := (List.getElem?_eq_some_iff.1 hj).1
    exact ⟨g.number + j + 1, by omega, by omega, a3 j v hj⟩
  refine ⟨hroots, fun p d hp x v hx => ?_⟩
  rcases hm.source p d hp x v hx with ⟨j, a, _, hj, _⟩ | hf
  · exact hroots v (List.mem_of_getElem? hj)
  · exact hf.mono (by omega) (Nat.le_refl _)

/-! ## C43 -/

theorem linked_same {t : ParseTree Attachment} {inc : List String} {m n : Nat} {maps : List (List Nat × Dict String)}
    (hm : MapsOk t inc m n maps) {u v : NodeVar} (h : Linked t u v) :
    u = v ∨ ∃ d e w, (u.1, d) ∈ maps ∧ (v.1, e) ∈ maps ∧ d.get u.2 = some w ∧ e.get v.2 = some w := by
  induction h with
  | refl v => exact .inl rfl
  | @edge u v he => exact .inr (hm.edges u.1 u.2 v.1 v.2 he)
  | symm _ ih =>
    rcases ih with rfl | ⟨d, e, w, h1, h2, h3, h4⟩
    · exact .inl rfl
    · exact .inr ⟨e, d, w, h2, h1, h4, h3⟩
  | trans _ _ ih1 ih2 =>
    rcases ih1 with rfl | ⟨d, e, w, h1, h2, h3, h4⟩
    · exact ih2
    · rcases ih2 with rfl | ⟨d', e', w', k1, k2, k3, k4⟩
      · exact .inr ⟨d, e, w, h1, h2, h3, h4⟩
      · have := hm.functional _ e d' h2 k1
        subst this
        rw [h4] at k3
        cases k3
        exact .inr ⟨d, e', w, h1, k2, h3, k4⟩

/-- **C43** (formal variables) In a composed sentence two formal variables, of the same node or of different nodes, stand for the
same generated variable if and only if the grammar rules of the tree connect them. -/
theorem C43_identified_iff_linked {t : ParseTree Attachment} {g g' : Gen} {roots : List String} {c : Composed}
    (h : composeSentence t g = .ok g' (roots, c)) {p q : List Nat} {d e : Dict String} (hp : (p, d) ∈ c.maps) (hq : (q, e) ∈ c.maps)
    {x y v v' : String} (hx : d.get x = some v) (hy : e.get y = some v') : v = v' ↔ Linked t (p, x) (q, y) := by
  obtain ⟨g1, h1, h2, hm⟩ := composeSentence_parts h
  obtain ⟨a1, a2, a3⟩ := nextVars_roots h1
  constructor
  · rintro rfl
    rcases hm.source p d hp x v hx with ⟨j, a, k1, k2, k3⟩ | hf
    · rcases hm.source q e hq y v hy with ⟨j', a', k1', k2', k3'⟩ | hf
      · have e1 := a3 j v k2
        have e2 := a3 j' v k2'
        have : j = j' := by have := genName_injective (e1.symm.trans e2); omega
        subst this
        have : a = a' := by have := k1.1; rw [k1'.1] at this; simpa using this.symm
        subst this
        exact k3.symm.trans k3'
      · obtain ⟨i, hi1, hi2, hi3⟩ := hf
        have hlt : j < roots.length := (List.getElem?_eq_some_iff.1 k2).1
        have := genName_injective (hi3.symm.trans (a3 j v k2))
        omega
    · exact hm.apart p d q e hp hq x y v hx hy hf
  · intro hl
    rcases linked_same hm hl with he | ⟨d', e', w, k1, k2, k3, k4⟩
    · cases he
      have := hm.functional p d e hp hq
      subst this
      rw [hx] at hy
      exact Option.some.inj hy
    · have := hm.functional p d d' hp k1
      subst this
      have := hm.functional q e e' hq k2
      subst this
      simp only at k3 k4
      rw [hx] at k3
      rw [hy] at k4
      cases k3; cases k4; rfl

/-- The arguments of an atom, or elements of a list used as one. -/
def topArgs : Value → List Value
  | .tuple xs => xs
  | .list xs => xs
  | _ => []

theorem unifyList_eq_map (d : Dict String) (xs : List Value) : unifyList d xs = xs.map (unify d) := by
  induction xs with
  | nil => rfl
  | cons x xs ih => simp [unifyList, ih]

theorem isGenName_fresh {m n : Nat} {v : String} (h : Fresh m n v) : isGenName v = true := by
  obtain ⟨i, _, _, rfl⟩ := h
  exact isGenName_genName i

theorem compose_last {t : ParseTree Attachment} {inc : List String} {g g' : Gen} {c : Composed} (h : compose t inc g = .ok g' c) :
    ∃ d g1 g2 d' s f sems, createMap t.rule inc g = .ok g1 d ∧ extendMap d s g2 = .ok g' d' ∧ c.sem = unify d' s ∧ ([], d') ∈ c.maps ∧
      semOf t.rule.sem = some f ∧ f sems = .ok s := by
  cases t with
  | node cat cs form r =>
    unfold compose at h
    rw [M.bind_eq_ok] at h
    obtain ⟨g1, d, hd, h⟩ := h
    rw [M.bind_eq_ok] at h
    obtain ⟨g2, parts, hp, h⟩ := h
    cases hsem : semOf r.sem with
    | none => simp [hsem] at h
    | some f =>
      simp only [hsem, M.bind_eq_ok, M.lift_eq_ok, M.pure_eq_ok] at h
      obtain ⟨_, s, ⟨rfl, hf⟩, _, ex, ⟨rfl, _⟩, _, dg, ⟨rfl, _⟩, g3, d', hx, rfl, rfl⟩ := h
      exact ⟨d, g1, g2, d', s, f, parts.sems, hd, hx, rfl, by simp, hsem, hf⟩

/-- **C43** (top level) Every variable that is a direct argument of an atom of the composed meaning is a generated one. -/
theorem C43_top_level_generated {t : ParseTree Attachment} {g g' : Gen} {roots : List String} {c : Composed}
    (h : composeSentence t g = .ok g' (roots, c)) {atoms : List Value} (hs : c.sem = .list atoms) :
    ∀ a ∈ atoms, ∀ x, Value.var x ∈ topArgs a → x.toList.head? = some '$' := by
  have hfresh := C42_fresh h
  obtain ⟨g1, h1, h2, hm⟩ := composeSentence_parts h
  obtain ⟨d, g2, g3, d', s, f, sems, _, hx, hsem, hmem, _, _⟩ := compose_last h2
  rw [hs] at hsem
  obtain ⟨_, hitems, _⟩ := extendMap_grows hx
  have hgen : ∀ x v, d'.get x = some v → isGenName v = true := fun x v hv => isGenName_fresh (hfresh.2 [] d' hmem x v hv)
  have hvar : ∀ x y, unify d' (.var x) = .var y → ((∃ v, d'.get x = some v) ∨ isGenName x = true) → isGenName y = true := by
    intro x y hu hx
    simp only [unify] at hu
    cases hv : d'.get x with
    | some v =>
      simp only [hv, Value.var.injEq] at hu
      subst hu
      exact hgen x v hv
    | none =>
      simp only [hv, Value.var.injEq] at hu
      subst hu
      rcases hx with ⟨v, hv'⟩ | h
      · rw [hv] at hv'; simp at hv'
      · exact h
  cases s with
  | list as =>
    simp only [unify, unifyList_eq_map, Value.list.injEq] at hsem
    subst hsem
    intro a ha y hy
    obtain ⟨b, hb, rfl⟩ := List.mem_map.1 ha
    obtain ⟨items, hi, hv⟩ := hitems as rfl b hb
    have key : ∀ xs, iterItems b = .ok xs → Value.var y ∈ xs.map (unify d') → isGenName y = true := by
      intro xs hxs hy
      rw [hi] at hxs
      cases hxs
      obtain ⟨z, hz, hzy⟩ := List.mem_map.1 hy
      cases z with
      | var x => exact hvar x y hzy (hv x hz)
      | rvar x => simp only [unify] at hzy; split at hzy <;> simp at hzy
      | _ => simp [unify] at hzy
    have hgoal : isGenName y = true := by
      cases b with
      | tuple xs => exact key xs rfl (by simpa [unify, topArgs, unifyList_eq_map] using hy)
      | list xs => exact key xs rfl (by simpa [unify, topArgs, unifyList_eq_map] using hy)
      | _ => simp [iterItems, unify, topArgs] at hi hy
    simpa [isGenName] using hgoal
  | var x => simp only [unify] at hsem; split at hsem <;> simp at hsem
  | rvar x => simp only [unify] at hsem; split at hsem <;> simp at hsem
  | _ => simp [unify] at hsem

mutual
/-- Names of the variables and reified variables at any depth, also in the bodies of templates. -/
def deepVars : Value → List String
  | .var x => [x]
  | .rvar x => [x]
  | .list xs => deepVarsAll xs
  | .tuple xs => deepVarsAll xs
  | .tmpl _ body => deepVarsAll body
  | _ => []
/-- The same for a list of values. -/
def deepVarsAll : List Value → List String
  | [] => []
  | x :: xs => deepVars x ++ deepVarsAll xs
end

mutual
theorem unify_deep (d : Dict String) : ∀ (v : Value) (y : String), y ∈ deepVars (unify d v) →
    ∃ x ∈ deepVars v, d.get x = some y ∨ (d.get x = none ∧ x = y)
  | .var x, y, h => by
    simp only [unify] at h
    cases hx : d.get x with
    | some u => simp only [hx, deepVars, List.mem_singleton] at h; subst h; exact ⟨x, by simp [deepVars], .inl hx⟩
    | none => simp only [hx, deepVars, List.mem_singleton] at h; subst h; exact ⟨y, by simp [deepVars], .inr ⟨hx, rfl⟩⟩
  | .rvar x, y, h => by
    simp only [unify] at h
    cases hx : d.get x with
    | some u => simp [hx, deepVars] at h
    | none => simp only [hx, deepVars, List.mem_singleton] at h; subst h; exact ⟨y, by simp [deepVars], .inr ⟨hx, rfl⟩⟩
  | .list xs, y, h => by simpa only [deepVars] using unifyList_deep d xs y (by simpa only [unify, deepVars] using h)
  | .tuple xs, y, h => by simpa only [deepVars] using unifyList_deep d xs y (by simpa only [unify, deepVars] using h)
  | .tmpl _ xs, y, h => by simpa only [deepVars] using unifyList_deep d xs y (by simpa only [unify, deepVars] using h)
  | .none, y, h => by simp [unify, deepVars] at h
  | .num _, y, h => by simp [unify, deepVars] at h
  | .str _, y, h => by simp [unify, deepVars] at h
theorem unifyList_deep (d : Dict String) : ∀ (vs : List Value) (y : String), y ∈ deepVarsAll (unifyList d vs) →
    ∃ x ∈ deepVarsAll vs, d.get x = some y ∨ (d.get x = none ∧ x = y)
  | [], y, h => by simp [unifyList, deepVarsAll] at h
  | v :: vs, y, h => by
    simp only [unifyList, deepVarsAll, List.mem_append] at h
    rcases h with h | h
    · obtain ⟨x, hx, hd⟩ := unify_deep d v y h
      exact ⟨x, by simp [deepVarsAll, hx], hd⟩
    · obtain ⟨x, hx, hd⟩ := unifyList_deep d vs y h
      exact ⟨x, by simp [deepVarsAll, hx], hd⟩
end

/-- The variables of the constituents of a rule. -/
def formalNames (r : GRule Attachment) : List String := argNames r.ante ++ r.cons.flatMap argNames

/-- A semantic attachment is tidy if all variables it introduces, at whatever depth, are formal variables of the rule or occur
also as a direct argument of one of the atoms it builds; other variables come from the meanings of the children. -/
def TidySem (r : GRule Attachment) : Prop := ∀ f sems s, semOf r.sem = some f → f sems = .ok s → ∀ x ∈ deepVars s,
  x ∈ formalNames r ∨ (∃ atoms, s = .list atoms ∧ ∃ a ∈ atoms, Value.var x ∈ topArgs a) ∨ x ∈ deepVarsAll sems

/-- All variables in a value are generated ones. -/
def AllGen (v : Value) : Prop := ∀ x ∈ deepVars v, isGenName x = true

theorem deepVarsAll_mem {x : String} {vs : List Value} : x ∈ deepVarsAll vs ↔ ∃ v ∈ vs, x ∈ deepVars v := by
  induction vs with
  | nil => simp [deepVarsAll]
  | cons v vs ih => simp [deepVarsAll, ih]

mutual
/-- The meaning of a leaf contains no variables; all other nodes are tidy. -/
def TidyTree : ParseTree Attachment → Prop
  | .node _ cs _ r => (cs = [] → ∀ f s, semOf r.sem = some f → f [] = .ok s → deepVars s = []) ∧ (cs ≠ [] → TidySem r) ∧ TidyTrees cs
/-- The same for all trees of a list. -/
def TidyTrees : List (ParseTree Attachment) → Prop
  | [] => True
  | t :: ts => TidyTree t ∧ TidyTrees ts
end

mutual
theorem compose_allGen : ∀ (t : ParseTree Attachment) (inc : List String) (g g' : Gen) (c : Composed), t.children ≠ [] → TidyTree t →
    (∀ (j : Nat) v, inc[j]? = some v → Fresh 0 g.number v) → compose t inc g = .ok g' c → AllGen c.sem
  | .node cat cs form r, inc, g, g', c, hne, ht, hold, h => by
    have hm := compose_maps _ _ _ _ _ hold h
    unfold compose at h
    rw [M.bind_eq_ok] at h
    obtain ⟨g1, d, hd, h⟩ := h
    rw [M.bind_eq_ok] at h
    obtain ⟨g2, parts, hp, h⟩ := h
    have hg1 := (advances_createMap _ _).le hd
    obtain ⟨m1, m2, m3, m4⟩ := createMap_spec hd
    have hdold : OldMap d g1.number := by
      intro x v hx
      by_cases ha : x ∈ argNames r.ante
      · obtain ⟨j, hj⟩ := LastArg.exists ha
        obtain ⟨u, hu1, hu2⟩ := m1 x j hj
        rw [hx] at hu2
        cases hu2
        exact (hold j v hu1).mono (Nat.le_refl _) hg1
      · exact (m2 x v hx ha).1.mono (Nat.zero_le _) (Nat.le_refl _)
    simp only [TidyTree] at ht
    have hsems := composeChildren_allGen cs r.cons d 0 ⟨[], [], [], []⟩ g1 g2 parts ht.2.2 hdold (by simp) hp
    cases hsem : semOf r.sem with
    | none => simp [hsem] at h
    | some f =>
      simp only [hsem, M.bind_eq_ok, M.lift_eq_ok, M.pure_eq_ok] at h
      obtain ⟨_, s, ⟨rfl, hf⟩, _, ex, ⟨rfl, _⟩, _, dg, ⟨rfl, _⟩, g3, d', hx, rfl, rfl⟩ := h
      obtain ⟨x1, x2, _⟩ := extendMap_grows hx
      have hvals : ∀ x v, d'.get x = some v → isGenName v = true := by
        intro x v hv
        rcases hm.source [] d' (by simp) x v hv with ⟨j, _, _, hj, _⟩ | hf
        · exact isGenName_fresh (hold j v hj)
        · exact isGenName_fresh hf
      intro y hy
      obtain ⟨x, hx', hd'⟩ := unify_deep d' s y hy
      rcases hd' with hd' | ⟨hnone, rfl⟩
      · exact hvals x y hd'
      · rcases ht.2.1 (by simpa [ParseTree.children] using hne) f parts.sems s hsem hf x hx' with hform | ⟨atoms, rfl, a, ha, hxa⟩ | hch
        · exfalso
          have : ∃ v, d.get x = some v := by
            simp only [formalNames, List.mem_append, List.mem_flatMap] at hform
            rcases hform with hform | ⟨k, hk, hkx⟩
            · obtain ⟨j, hj⟩ := LastArg.exists hform
              obtain ⟨u, _, hu⟩ := m1 x j hj
              exact ⟨u, hu⟩
            · exact m4 k hk x hkx
          obtain ⟨v, hv⟩ := this
          rw [x1.keep x v hv] at hnone
          simp at hnone
        · obtain ⟨items, hi, hit⟩ := x2 atoms rfl a ha
          have hitems : items = topArgs a := by
            cases a <;> simp only [iterItems, Except.ok.injEq, reduceCtorEq, topArgs] at hi ⊢ <;> exact hi.symm
          rw [hitems] at hit
          rcases hit x hxa with ⟨v, hv⟩ | hg
          · rw [hnone] at hv; simp at hv
          · exact hg
        · obtain ⟨w, hw, hxw⟩ := deepVarsAll_mem.1 hch
          exact hsems w hw x hxw
theorem composeChildren_allGen : ∀ (cs : List (ParseTree Attachment)) (ks : List Constituent) (d : Dict String) (i : Nat)
    (acc : ChildParts) (g g' : Gen) (parts : ChildParts), TidyTrees cs → OldMap d g.number → (∀ s ∈ acc.sems, AllGen s) →
    composeChildren cs ks d i acc g = .ok g' parts → ∀ s ∈ parts.sems, AllGen s
  | [], ks, d, i, acc, g, g', parts, _, _, hacc, h => by
    unfold composeChildren at h
    simp only [M.pure_eq_ok] at h
    obtain ⟨rfl, rfl⟩ := h
    exact hacc
  | _ :: _, [], d, i, acc, g, g', parts, _, _, hacc, h => by
    unfold composeChildren at h
    simp only [M.pure_eq_ok] at h
    obtain ⟨rfl, rfl⟩ := h
    exact hacc
  | .node cat cs form r :: rest, k :: ks, d, i, acc, g, g', parts, ht, hd, hacc, h => by
    simp only [TidyTrees] at ht
    unfold composeChildren at h
    split at h
    · rename_i hcs
      cases hsem : semOf r.sem with
      | none =>
        simp only [hsem] at h
        exact composeChildren_allGen rest ks d (i + 1) acc g g' parts ht.2 hd hacc h
      | some f =>
        simp only [hsem, M.bind_eq_ok, M.lift_eq_ok] at h
        obtain ⟨_, s, ⟨rfl, hs⟩, h⟩ := h
        refine composeChildren_allGen rest ks d (i + 1) _ g g' parts ht.2 hd (fun u hu => ?_) h
        simp only [List.mem_append, List.mem_singleton] at hu
        rcases hu with hu | rfl
        · exact hacc u hu
        · have := ht.1
          simp only [TidyTree] at this
          intro x hx
          rw [this.1 (by simpa using hcs) f u hsem hs] at hx
          simp at hx
    · rename_i hcs
      simp only [M.bind_eq_ok, M.lift_eq_ok] at h
      obtain ⟨_, inc, ⟨rfl, hinc⟩, g1, c, hc, h⟩ := h
      have hlook := mapAll_get hinc
      have hg := compose_allGen (.node cat cs form r) inc g g1 c (by simpa [ParseTree.children] using hcs) ht.1 (fun j v hj => by
        have hlt : j < (argNames k).length := by
          rw [← hlook.1]
          exact (List.getElem?_eq_some_iff.1 hj).1
        obtain ⟨u, hu1, hu2⟩ := hlook.2 j _ (List.getElem?_eq_getElem hlt)
        rw [hj] at hu2
        cases hu2
        exact hd _ _ hu1) hc
      have hg1 := (advances_compose _ _).le hc
      refine composeChildren_allGen rest ks d (i + 1) _ g1 g' parts ht.2 (fun x v hx => (hd x v hx).mono (Nat.le_refl _) hg1) (fun u hu => ?_) h
      simp only [List.mem_append, List.mem_singleton] at hu
      rcases hu with hu | rfl
      · exact hacc u hu
      · exact hg
end

/-- **C43** (all depths) If the semantic attachments are tidy, every variable of the composed meaning, at whatever depth and also
inside templates, is a generated one. Missing: attachments that use a local variable only inside a nested list (`C43_capture`). -/
theorem C43_all_generated_partial {t : ParseTree Attachment} {g g' : Gen} {roots : List String} {c : Composed} (ht : TidyTree t)
    (hne : t.children ≠ []) (h : composeSentence t g = .ok g' (roots, c)) : ∀ x ∈ deepVars c.sem, x.toList.head? = some '$' := by
  obtain ⟨g1, h1, h2, hm⟩ := composeSentence_parts h
  obtain ⟨a1, a2, a3⟩ := nextVars_roots h1
  intro x hx
  have := compose_allGen t roots g1 g' c hne ht (fun j v hj => by
    have hlt : j < roots.length := (List.getElem?_eq_some_iff.1 hj).1
    exact ⟨g.number + j + 1, by omega, by omega, a3 j v hj⟩) h2 x hx
  simpa [isGenName] using this

mutual
theorem unify_keep (d : Dict String) : ∀ v, (∀ x ∈ deepVars v, d.get x = none) → unify d v = v
  | .var x, h => by simp [unify, h x (by simp [deepVars])]
  | .rvar x, h => by simp [unify, h x (by simp [deepVars])]
  | .list xs, h => by rw [unify, unifyList_keep d xs (by simpa only [deepVars] using h)]
  | .tuple xs, h => by rw [unify, unifyList_keep d xs (by simpa only [deepVars] using h)]
  | .tmpl _ xs, h => by rw [unify, unifyList_keep d xs (by simpa only [deepVars] using h)]
  | .none, _ => rfl
  | .num _, _ => rfl
  | .str _, _ => rfl
theorem unifyList_keep (d : Dict String) : ∀ vs, (∀ x ∈ deepVarsAll vs, d.get x = none) → unifyList d vs = vs
  | [], _ => rfl
  | v :: vs, h => by
    rw [unifyList, unify_keep d v (fun x hx => h x (by simp [deepVarsAll, hx])),
      unifyList_keep d vs (fun x hx => h x (by simp [deepVarsAll, hx]))]
end

/-- **C43** (no capture) The meaning of a tidy child passes through the renaming at a node above it unchanged, whatever the names
of the formal variables there, as long as these do not start with `$`. -/
theorem C43_child_unchanged {t : ParseTree Attachment} {inc : List String} {g g' : Gen} {c : Composed} (h : compose t inc g = .ok g' c)
    (hnames : ∀ x ∈ formalNames t.rule, isGenName x = false) {s : Value} (hs : AllGen s) :
    ∃ d', ([], d') ∈ c.maps ∧ unify d' s = s := by
  obtain ⟨d, g1, g2, d', s', f, sems, hd, hx, hsem, hmem, _, _⟩ := compose_last h
  obtain ⟨m1, m2, m3, m4⟩ := createMap_spec hd
  obtain ⟨x1, _, x3⟩ := extendMap_grows hx
  refine ⟨d', hmem, unify_keep d' s fun x hxs => ?_⟩
  cases hv : d'.get x with
  | none => rfl
  | some v =>
    exfalso
    have hg := hs x hxs
    cases hd0 : d.get x with
    | none => rw [x3 x v hv hd0] at hg; simp at hg
    | some u =>
      have hform : x ∈ formalNames t.rule := by
        simp only [formalNames, List.mem_append, List.mem_flatMap]
        by_cases ha : x ∈ argNames t.rule.ante
        · exact .inl ha
        · exact .inr (m2 x u hd0 ha).2
      rw [hnames x hform] at hg
      simp at hg

/-! ## Cases -/

/-- A constituent. -/
def exConst (name : Str) (args : List Str) : Constituent := ⟨name, args, .relation, false, false⟩

/-- A leaf: a word without meaning. -/
def exLeafNode : ParseTree Attachment := .node ['x'] [] ['x'] ⟨exConst ['x'] [], [], .none, 0, 0⟩

/-- `np(X) -> 'x'`, meaning `[('none', [('p', Z)])]` with a local variable only inside the nested list. -/
def exNounPh (z : String) : ParseTree Attachment := .node ['n', 'p'] [exLeafNode] []
  ⟨exConst ['n', 'p'] [['X']], [⟨['x'], [], .word, false, false⟩],
    .user ⟨some fun _ => .ok (.list [.tuple [.str "none", .list [.tuple [.str "p", .var z]]]]), none, fun _ => .ok []⟩, 0, 0⟩

/-- `s() -> np(Y)`, meaning: that of the noun phrase and `('q', Y)`. -/
def exSent (z : String) : ParseTree Attachment := .node ['s'] [exNounPh z] []
  ⟨exConst ['s'] [], [exConst ['n', 'p'] [['Y']]],
    .user ⟨some fun sems => match sems with
      | [.list np] => .ok (.list (np ++ [.tuple [.str "q", .var "Y"]]))
      | _ => .error .typeError, none, fun _ => .ok []⟩, 0, 0⟩

/-- The meaning of a composed sentence, if there is one. -/
def meaningOf (t : ParseTree Attachment) : Option Value := match composeSentence t Gen.init with
  | .ok _ r => some r.2.sem
  | _ => none

/-- **C43** in full is false: a variable that a rule uses only inside a nested list is not renamed, and is taken for a formal variable of
the rule above if it happens to have the same name. Here the local `Y` of the noun phrase becomes the `Y` of the sentence. -/
theorem C43_capture : meaningOf (exSent "Y") = some (.list [.tuple [.str "none", .list [.tuple [.str "p", .var "$1"]]], .tuple [.str "q", .var "$1"]]) ∧
    meaningOf (exSent "Z") = some (.list [.tuple [.str "none", .list [.tuple [.str "p", .var "Z"]]], .tuple [.str "q", .var "$1"]]) := by
  constructor <;> decide +kernel

/-- `np(X) -> 'x'`, meaning `[('p', X, L)]` with a local variable. -/
def exNp2 : ParseTree Attachment := .node ['n', 'p'] [exLeafNode] []
  ⟨exConst ['n', 'p'] [['X']], [⟨['x'], [], .word, false, false⟩],
    .user ⟨some fun _ => .ok (.list [.tuple [.str "p", .var "X", .var "L"]]), none, fun _ => .ok []⟩, 0, 0⟩

/-- `s(E) -> np(E) np(X)`, meaning: both noun phrases and `('q', E, X)`. -/
def exS2 : ParseTree Attachment := .node ['s'] [exNp2, exNp2] []
  ⟨exConst ['s'] [['E']], [exConst ['n', 'p'] [['E']], exConst ['n', 'p'] [['X']]],
    .user ⟨some fun sems => match sems with
      | [.list np1, .list np2] => .ok (.list (np1 ++ np2 ++ [.tuple [.str "q", .var "E", .var "X"]]))
      | _ => .error .typeError, none, fun _ => .ok []⟩, 0, 0⟩

example : meaningOf exS2 = some (.list [.tuple [.str "p", .var "$1", .var "$3"], .tuple [.str "p", .var "$2", .var "$4"],
    .tuple [.str "q", .var "$1", .var "$2"]]) := by decide +kernel

/-- The example sentence can be composed. -/
theorem exS2_ok : ∃ g roots c, composeSentence exS2 Gen.init = .ok g (roots, c) := by
  have h : (match composeSentence exS2 Gen.init with
    | .ok _ _ => true
    | _ => false) = true := by decide +kernel
  cases hr : composeSentence exS2 Gen.init with
  | ok g r => exact ⟨g, r.1, r.2, rfl⟩
  | err => rw [hr] at h; simp at h
  | oof => rw [hr] at h; simp at h

example : True := by
  obtain ⟨g, roots, c, h⟩ := exS2_ok
  have h1 := C42_fresh h
  have h2 := @C43_identified_iff_linked _ _ _ _ _ h
  have h3 := @C43_top_level_generated _ _ _ _ _ h
  trivial

/-- The `X` of the first noun phrase is linked to the `E` of the sentence. -/
example : Linked exS2 ([], "E") ([0], "X") :=
  .edge (.here (i := 0) (j := 0) (k := exConst ['n', 'p'] [['E']]) (c := exNp2) rfl (by simp [exNp2, ParseTree.children]) rfl rfl
    ⟨rfl, fun k hk => by
      cases k with
      | zero => omega
      | succ k => simp [argNames, exNp2, ParseTree.rule, exConst]⟩)

/-- The example is tidy. -/
theorem exS2_tidy : TidyTree exS2 := by
  have hleaf : TidyTree exLeafNode := by simp [exLeafNode, TidyTree, TidyTrees, semOf]
  have hnp : TidyTree exNp2 := by
    simp only [exNp2, TidyTree, TidyTrees, hleaf, and_true]
    refine ⟨by simp, fun _ f sems s hf hs x hx => ?_⟩
    simp only [semOf, Option.some.injEq] at hf
    subst hf
    simp only [Except.ok.injEq] at hs
    subst hs
    refine .inr (.inl ⟨_, rfl, .tuple [.str "p", .var "X", .var "L"], by simp, ?_⟩)
    simp only [deepVars, deepVarsAll, List.nil_append, List.append_nil, List.mem_append, List.mem_singleton] at hx
    rcases hx with rfl | rfl <;> simp [topArgs]
  simp only [exS2, TidyTree, TidyTrees, hnp, and_true]
  refine ⟨by simp, fun _ f sems s hf hs x hx => ?_⟩
  simp only [semOf, Option.some.injEq] at hf
  subst hf
  dsimp only at hs
  split at hs
  · rename_i np1 np2
    simp only [Except.ok.injEq] at hs
    subst hs
    simp only [deepVars] at hx
    obtain ⟨v, hv, hxv⟩ := deepVarsAll_mem.1 hx
    simp only [List.mem_append, List.mem_singleton] at hv
    rcases hv with (hv | hv) | rfl
    · exact .inr (.inr (deepVarsAll_mem.2 ⟨.list np1, by simp, by simp only [deepVars]; exact deepVarsAll_mem.2 ⟨v, hv, hxv⟩⟩))
    · exact .inr (.inr (deepVarsAll_mem.2 ⟨.list np2, by simp, by simp only [deepVars]; exact deepVarsAll_mem.2 ⟨v, hv, hxv⟩⟩))
    · refine .inr (.inl ⟨_, rfl, .tuple [.str "q", .var "E", .var "X"], by simp, ?_⟩)
      simp only [deepVars, deepVarsAll, List.nil_append, List.append_nil, List.mem_append, List.mem_singleton] at hxv
      rcases hxv with rfl | rfl <;> simp [topArgs]
  · simp at hs

example : True := by
  obtain ⟨g, roots, c, h⟩ := exS2_ok
  have h1 := C43_all_generated_partial exS2_tidy (by simp [exS2, ParseTree.children]) h
  trivial

end Verif
