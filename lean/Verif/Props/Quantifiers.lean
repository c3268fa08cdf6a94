import Verif.QuantifiedTree
import Verif.Props.FirstOrder

/-!
# C76: the composed meaning of a sentence with quantifiers

What trees with determiners, noun phrases, negation and the like mean is in `Verif.Quantified` and `Verif.QuantifiedGrammar`.
A tree that meets the conditions of the theorems here, `every parent has two children`, is in `Verif.Props.QuantifiedText` (`Ex.kin_specTree`,
`Ex.kin_holds`).
-/

namespace Verif

/-- Specification: the sentence is true of the values. It has no slots, so what is given for these does not matter. -/
def SentenceTrue (P : Program) (spec : GRule Attachment → List Value → RuleParts) (t : ParseTree Attachment) (vals : List Value) : Prop :=
  ∃ D, nodeMeaning P spec t = .phrase D ∧ D (fun _ _ => True) vals

/-- Specification: the root is a phrase without slots that does not require values for its arguments. -/
structure RootSig (s : Sig) : Prop where
  slots : s.slots = []
  modes : Mode.known ∉ s.modes

theorem flagged_nil (xs : List String) : flagged xs [] = [] := by simp [flagged]

/-- Nothing, for slots that are not there. -/
def noFilling : Filling := ⟨[], fun _ => False, fun _ => False, fun _ => False, fun _ => True⟩

theorem noFilling_ok {ar : String → Option Nat} {P : Program} {s : Sig} (hs : s.slots = []) (inc : List String) (B : String → Prop) :
    FillingsOk ar P (fun _ => noFilling) s.slot inc B where
  each := by
    intro j
    have : s.slot j = ⟨[], [], true, true⟩ := by simp [Sig.slot, hs]
    rw [this]
    exact ⟨fun B1 _ _ _ => by rw [flagged_nil]; exact goodQuery_nil, fun _ _ _ => Iff.rfl, fun _ h => h.elim, fun _ h => h.elim, fun _ h => h.elim,
      fun _ _ h => h.elim⟩
  share := fun _ _ _ _ h => h.elim
  apart := fun _ _ _ _ h => h.elim

section
variable {ar : String → Option Nat} {R : List String} {sigs : GRule Attachment → Sig} {spec : GRule Attachment → List Value → RuleParts}

/-- A phrase without slots is a query that can be satisfied with given values for the root variables exactly when the phrase says so of these values. -/
theorem phrase_query {P : Program} {sg : Sig} (hroot : RootSig sg) {roots : List String} {m n : Nat} {v : Value}
    {D : (Nat → List Value → Prop) → List Value → Prop} (hfr : ∀ x ∈ roots, Fresh 0 m x)
    (hnd : ∀ (i j : Nat) (v : String), roots[i]? = some v → roots[j]? = some v → i = j) (h : PhraseValue ar P R sg roots m n v D) :
    ∃ q, v = .list (formValues q) ∧ FormsOk ar q (fun _ => False) ∧ (∀ x ∈ flagged roots sg.after, x ∈ formBinds q) ∧
      (∀ x ∈ deepVarsAll (formValues q), ∃ k, x = genName k) ∧
      (∀ σ : Assignment, (∀ x, Plain (σ x)) → SatAll P q (fun _ => False) σ → D (fun _ _ => True) (roots.map σ)) ∧
      ∀ vals : List Value, vals.length = roots.length → (∀ v ∈ vals, Plain v) → D (fun _ _ => True) vals →
        ∃ σ : Assignment, (∀ x, Plain (σ x)) ∧ roots.map σ = vals ∧ SatAll P q (fun _ => False) σ := by
  obtain ⟨names, body, G, p1, _, p3, _, p5, p6, p7⟩ := h
  rw [hroot.slots, List.length_nil, List.length_eq_zero_iff] at p1
  subst p1
  have hq := p5 (fun _ => [])
  have hfill : fillIn (slotValues [] (slotForms 0 fun _ => [])) body = body :=
    fillIn_absent (slotValues_onlyNames _ _) fun s _ => by simp [slotValues]
  simp only [List.length_nil, hfill] at hq
  have hmodes : ModesOk sg.modes roots (fun _ => False) := by
    intro p hp
    refine ⟨fun he => ?_, fun _ h => h.elim⟩
    have := (List.of_mem_zip hp).1
    rw [he] at this
    exact (hroot.modes this).elim
  have hgood := p7 (fun _ => False) (fun _ => noFilling) hmodes (noFilling_ok hroot.slots _ _) (fun x hx =>
    ⟨fun h => h, fun hxr => (hfr x hxr).disjoint hx (Nat.le_refl _), fun _ h => h⟩)
  refine ⟨G fun _ => [], ?_, hgood.ok, fun x hx => (hgood.must x hx).resolve_left fun h => h, by rw [← hq]; exact p6, hgood.sound, ?_⟩
  · simp only [HasBody, if_true] at p3
    rw [p3, hq]
  · intro vals hlen hpl hv
    obtain ⟨σ, s1, s2, _⟩ := exists_assignment hnd hlen hpl (fun _ => .num 0) (fun _ => ⟨by simp, rfl, rfl⟩)
    obtain ⟨σ', t1, t2, t3⟩ := hgood.complete σ s1 (by rw [s2]; exact hv)
    refine ⟨σ', t1, ?_, t3 σ' t1 fun _ _ => rfl⟩
    rw [← s2]
    apply List.map_congr_left
    intro x hx
    apply t2
    rintro (hf | ⟨_, hf⟩)
    · exact (hfr x hx).disjoint hf (Nat.le_refl _)
    · exact hf

theorem roots_fresh {as : List Str} {g g1 : Gen} {roots : List String} (h1 : nextVars as g = .ok g1 roots) :
    (∀ v ∈ roots, Fresh 0 g1.number v) ∧ roots.Nodup := by
  obtain ⟨a1, _, a3⟩ := nextVars_roots h1
  have hnd := nextVars_nodup h1
  constructor
  · intro v hv
    obtain ⟨j, hj⟩ := List.getElem?_of_mem hv
    have hlt : j < roots.length := (List.getElem?_eq_some_iff.1 hj).1
    exact ⟨g.number + j + 1, by omega, by omega, a3 j v hj⟩
  · rw [List.Nodup, List.pairwise_iff_getElem]
    intro i j hi hj hij he
    have := hnd i j _ (List.getElem?_eq_getElem hi) (by rw [List.getElem?_eq_getElem hj, he])
    omega

/-- **C76** The composed meaning of a sentence whose rules build meanings from atoms, comparisons, negation, numerals, `all` and templates is a
query that the solver can evaluate from scratch, and that can be satisfied with given values for the root variables exactly when the
sentence is true of these values. The query gives values to those root variables for which the signature of the root says so. -/
theorem C76_composed_iff_true (P : Program) {t : ParseTree Attachment} {g g' : Gen} {roots : List String} {c : Composed} (hne : t.children ≠ [])
    (ht : SpecTree ar P R sigs spec t) (hroot : RootSig (sigs t.rule)) {D : (Nat → List Value → Prop) → List Value → Prop}
    (hD : nodeMeaning P spec t = .phrase D) (h : composeSentence t g = .ok g' (roots, c)) :
    ∃ q, c.sem = .list (formValues q) ∧ FormsOk ar q (fun _ => False) ∧ (∀ x ∈ flagged roots (sigs t.rule).after, x ∈ formBinds q) ∧
      (∀ σ : Assignment, (∀ x, Plain (σ x)) → SatAll P q (fun _ => False) σ → SentenceTrue P spec t (roots.map σ)) ∧
      ∀ vals : List Value, vals.length = roots.length → (∀ v ∈ vals, Plain v) → SentenceTrue P spec t vals →
        ∃ σ : Assignment, (∀ x, Plain (σ x)) ∧ roots.map σ = vals ∧ SatAll P q (fun _ => False) σ := by
  obtain ⟨g1, h1, h2, _⟩ := composeSentence_parts h
  have hnd := nextVars_nodup h1
  obtain ⟨hfr, hnodup⟩ := roots_fresh h1
  obtain ⟨q, q1, q2, q3, _, q5, q6⟩ := phrase_query hroot hfr hnd ((compose_good t roots g1 g' c hne ht hfr h2).2 D hD hnodup (nextVars_roots h1).2.1)
  refine ⟨q, q1, q2, q3, fun σ hp hs => ⟨D, hD, q5 σ hp hs⟩, ?_⟩
  rintro vals hlen hpl ⟨D', hD', hv⟩
  rw [hD] at hD'
  cases hD'
  exact q6 vals hlen hpl hv

/-- **C76** The answers to a sentence with quantifiers, asked of a model with facts and (possibly recursive) rules, are exactly the values that
the sentence is true of. Each answer gives values to those root variables for which the signature of the root says so. -/
theorem C76_answers {W : Type} {tables : List (Dict (List (List Value)))} {rs : List HornRule} (K : KnowledgeBase W ar tables rs)
    (hrr : HeadsBound rs) (hcore : ∀ p ∈ coreNames, NotDefined K.others K.world p)
    {t : ParseTree Attachment} {g g' : Gen} {roots : List String} {c : Composed} (hne : t.children ≠ [])
    (ht : SpecTree ar (program tables rs) R sigs spec t) (hroot : RootSig (sigs t.rule)) {D : (Nat → List Value → Prop) → List Value → Prop}
    (hD : nodeMeaning (program tables rs) spec t = .phrase D) (h : composeSentence t g = .ok g' (roots, c)) {n : Nat} {w' : W} {out : SolOut}
    (ha : (solverAt (modelOf K.others) n).solve c.sem [] K.world = .ok w' out) :
    w' = K.world ∧ ∃ bs, out = .rows bs ∧ (∀ b ∈ bs, ∀ x ∈ flagged roots (sigs t.rule).after, b.has x = true) ∧
      ∀ vals : List Value, vals.length = roots.length → (∀ v ∈ vals, Plain v) →
        ((∃ b ∈ bs, Fits b roots vals) ↔ SentenceTrue (program tables rs) spec t vals) := by
  obtain ⟨q, hq, hok, hm, hs, hc⟩ := C76_composed_iff_true (program tables rs) hne ht hroot hD h
  obtain ⟨g1, h1, _, _⟩ := composeSentence_parts h
  have hnd := nextVars_nodup h1
  have hB : (fun x => Dict.has ([] : Binding) x = true) = fun _ => False := by
    funext x
    simp [Dict.has, Dict.get]
  rw [hq] at ha
  obtain ⟨e1, bs, e2, e3, e4, _⟩ := C71_first_order K hrr hcore (n := n) (q := q) (b := []) (by rw [hB]; exact hok) (fun x v hx => by simp at hx) ha
  rw [hB] at e3 e4
  refine ⟨e1, bs, e2, fun b hb x hx => ((e3 b hb).2.2.1 x).2 (.inr (hm x hx)), fun vals hlen hp => ⟨?_, ?_⟩⟩
  · rintro ⟨b, hb, hf⟩
    obtain ⟨p1, _, _, d1⟩ := e3 b hb
    obtain ⟨σ, s1, s2, s3⟩ := exists_assignment hnd hlen hp (completion b) (completion_plain p1)
    rw [← s2]
    refine hs σ s1 (d1 σ s1 fun x v hx => ?_)
    by_cases hxr : x ∈ roots
    · obtain ⟨j, hj⟩ := List.getElem?_of_mem hxr
      have hv := congrArg (fun l => l[j]?) s2
      simp only [List.getElem?_map, hj, Option.map_some] at hv
      rcases hf j x (σ x) hj hv.symm with h | h
      · rw [h] at hx; cases hx
      · rw [h] at hx; cases hx; rfl
    · rw [s3 x hxr]; exact completion_agrees b x v hx
  · intro hv
    obtain ⟨σ, s1, rfl, s3⟩ := hc vals hlen hp hv
    obtain ⟨b, hb, hag⟩ := e4 σ s1 (fun x v hx => by simp at hx) s3
    refine ⟨b, hb, fun j r v hj hv => ?_⟩
    simp only [List.getElem?_map, hj, Option.map_some, Option.some.injEq] at hv
    cases hx : b.get r with
    | none => exact .inl rfl
    | some u => rw [← hv, hag r u hx]; exact .inr rfl

/-- **C76** (yes or no) There are answers exactly when the sentence is true of some values. -/
theorem C76_yes_no {W : Type} {tables : List (Dict (List (List Value)))} {rs : List HornRule} (K : KnowledgeBase W ar tables rs)
    (hrr : HeadsBound rs) (hcore : ∀ p ∈ coreNames, NotDefined K.others K.world p)
    {t : ParseTree Attachment} {g g' : Gen} {roots : List String} {c : Composed} (hne : t.children ≠ [])
    (ht : SpecTree ar (program tables rs) R sigs spec t) (hroot : RootSig (sigs t.rule)) {D : (Nat → List Value → Prop) → List Value → Prop}
    (hD : nodeMeaning (program tables rs) spec t = .phrase D) (h : composeSentence t g = .ok g' (roots, c)) {n : Nat} {w' : W} {bs : List Binding}
    (ha : (solverAt (modelOf K.others) n).solve c.sem [] K.world = .ok w' (.rows bs)) :
    bs ≠ [] ↔ ∃ vals : List Value, vals.length = roots.length ∧ (∀ v ∈ vals, Plain v) ∧ SentenceTrue (program tables rs) spec t vals := by
  obtain ⟨q, hq, hok, _, hs, hc⟩ := C76_composed_iff_true (program tables rs) hne ht hroot hD h
  obtain ⟨_, bs', e, _, hiff⟩ := C76_answers K hrr hcore hne ht hroot hD h ha
  cases e
  constructor
  · intro hb
    obtain ⟨b, l, rfl⟩ := List.exists_cons_of_ne_nil hb
    rw [hq] at ha
    have hB : (fun x => Dict.has ([] : Binding) x = true) = fun _ => False := by
      funext x
      simp [Dict.has, Dict.get]
    obtain ⟨_, _, e2, e3, _⟩ := C71_first_order K hrr hcore (n := n) (q := q) (b := []) (by rw [hB]; exact hok) (fun x v hx => by simp at hx) ha
    cases e2
    obtain ⟨p1, _, _, d1⟩ := e3 b (by simp)
    rw [hB] at d1
    exact ⟨roots.map (completion b), by simp, fun v hv => by
      obtain ⟨x, _, rfl⟩ := List.mem_map.1 hv
      exact completion_plain p1 x, hs _ (completion_plain p1) (d1 _ (completion_plain p1) (completion_agrees b))⟩
  · rintro ⟨vals, h1, h2, h3⟩ rfl
    obtain ⟨b, hb, _⟩ := (hiff vals h1 h2).2 h3
    simp at hb

end

end Verif
