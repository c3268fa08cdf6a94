import Verif.Props.Composer
import Verif.Props.Isolate
import Verif.Props.Knowledge

/-!
# C69: the composed meaning of a sentence is true when the sentence is

For grammars whose rules conjoin the meanings of their parts (`sem: lambda a, b: a + b + [...]`), a meaning of parse trees is
given that knows nothing of generated variables and maps: the formal variables of a node have values, the atoms of the rule are
true of them, and each child holds of the values of its arguments. The composed query has exactly these solutions.
-/

namespace Verif

/-- The child semantics that leaves contribute: nothing, or the value of their function. -/
def leafSem (r : GRule Attachment) : List Value :=
  match semOf r.sem with
  | none => []
  | some f => match f [] with
    | .ok v => [v]
    | .error _ => []

/-- The semantics of the leaves among the children. -/
def leafSems : List (ParseTree Attachment) → List Value
  | [] => []
  | t :: ts => if t.children.isEmpty then leafSem t.rule ++ leafSems ts else leafSems ts

/-- The arguments with which the `sem` function of a rule is called, when the children other than leaves mean the given queries. -/
def childSems : List (ParseTree Attachment) → List Query → List Value
  | [], _ => []
  | t :: ts, qs => if t.children.isEmpty then leafSem t.rule ++ childSems ts qs else
    match qs with
    | [] => childSems ts []
    | q :: qs => toQuery q :: childSems ts qs

/-- The number of children that are not leaves. -/
def innerCount (ts : List (ParseTree Attachment)) : Nat := (ts.filter fun t => !t.children.isEmpty).length

mutual
/-- The sentence or phrase is true of the values: its formal variables have values, the first ones these, for which the atoms `own` of
the rule follow from the program and for which the children are true. -/
def Means (P : Program) (own : GRule Attachment → List Value → Query) : ParseTree Attachment → List Value → Prop
  | .node _ children _ rule, vals => ∃ τ : Assignment, (∀ x, Plain (τ x)) ∧ (argNames rule.ante).map τ = vals ∧
    AllTrue P (own rule (leafSems children)) τ ∧ MeansAll P own children rule.cons τ
/-- The children that are not leaves are true of the values of their arguments. -/
def MeansAll (P : Program) (own : GRule Attachment → List Value → Query) : List (ParseTree Attachment) → List Constituent → Assignment → Prop
  | t :: ts, k :: ks, τ => (t.children ≠ [] → Means P own t ((argNames k).map τ)) ∧ MeansAll P own ts ks τ
  | _, _, _ => True
end

/-- The constants in the query are not lists and contain no variables. -/
def ConstsClosed (q : Query) : Prop := ∀ a ∈ q, ∀ v ∈ a.2, v.isVar = false → deepVars v = [] ∧ ∀ xs, v ≠ .list xs

/-- The rule of this node conjoins the atoms `own` with the meanings of the children. Its names are not like generated ones, and the
children have as many arguments as the rule says. -/
structure ConjNode (ar : String → Option Nat) (own : GRule Attachment → List Value → Query) (cs : List (ParseTree Attachment))
    (r : GRule Attachment) : Prop where
  nodup : (argNames r.ante).Nodup
  names : ∀ x ∈ formalNames r, isGenName x = false
  length : r.cons.length = cs.length
  arity : ∀ (i : Nat) c k, cs[i]? = some c → r.cons[i]? = some k → c.children ≠ [] → k.args.length = c.rule.ante.args.length
  ownOk : QueryOk ar (own r (leafSems cs))
  ownClosed : ConstsClosed (own r (leafSems cs))
  ownNames : ∀ x ∈ queryVars (own r (leafSems cs)), isGenName x = false
  sem : ∀ f, semOf r.sem = some f → ∀ (qs : List Query) (v : Value), qs.length = innerCount cs → f (childSems cs qs) = .ok v →
    ∃ q, v = toQuery q ∧ ∀ a, a ∈ q ↔ a ∈ own r (leafSems cs) ∨ ∃ l ∈ qs, a ∈ l

mutual
/-- All nodes other than leaves conjoin. -/
def Conjunctive (ar : String → Option Nat) (own : GRule Attachment → List Value → Query) : ParseTree Attachment → Prop
  | .node _ cs _ r => (cs ≠ [] → ConjNode ar own cs r) ∧ ConjunctiveAll ar own cs
/-- The same for all trees of a list. -/
def ConjunctiveAll (ar : String → Option Nat) (own : GRule Attachment → List Value → Query) : List (ParseTree Attachment) → Prop
  | [] => True
  | t :: ts => Conjunctive ar own t ∧ ConjunctiveAll ar own ts
end

/-- Renaming in an atom. -/
def unifyAtom (d : Dict String) (a : String × List Value) : String × List Value := (a.1, a.2.map (unify d))

theorem unify_toQuery (d : Dict String) (q : Query) : unify d (toQuery q) = toQuery (q.map (unifyAtom d)) := by
  simp only [toQuery, unify, unifyList_eq_map, List.map_map]
  congr 1
  apply List.map_congr_left
  intro a _
  simp [toAtom, unify, unifyList_eq_map, unifyAtom]

theorem unify_closed {d : Dict String} {v : Value} (hc : deepVars v = []) : unify d v = v :=
  unify_keep d v (by simp [hc])

/-- All variables of the query are generated ones that the map does not rename, so the map leaves the query alone. -/
theorem unifyAtom_keep {d : Dict String} {q : Query} (hc : ConstsClosed q) (hv : ∀ x ∈ queryVars q, d.get x = none) {a : String × List Value}
    (ha : a ∈ q) : unifyAtom d a = a := by
  obtain ⟨p, vs⟩ := a
  simp only [unifyAtom, Prod.mk.injEq, true_and]
  conv => rhs; rw [← List.map_id vs]
  apply List.map_congr_left
  intro v hv'
  apply unify_keep
  intro x hx
  cases h : v.isVar with
  | false => rw [(hc _ ha v hv' h).1] at hx; simp at hx
  | true =>
    cases v <;> simp [Value.isVar] at h
    simp only [deepVars, List.mem_singleton] at hx
    subst hx
    exact hv x (mem_queryVars.2 ⟨_, ha, hv'⟩)

/-- Values of renamed arguments. -/
theorem inst_unify {d : Dict String} {σ τ : Assignment} {vs : List Value} (hc : ∀ v ∈ vs, v.isVar = false → deepVars v = [])
    (h : ∀ x, .var x ∈ vs → ∃ y, d.get x = some y ∧ σ y = τ x) : (vs.map (unify d)).map (inst σ) = vs.map (inst τ) := by
  rw [List.map_map]
  apply List.map_congr_left
  intro v hv
  simp only [Function.comp]
  cases hi : v.isVar with
  | true =>
    cases v <;> simp [Value.isVar] at hi
    obtain ⟨y, h1, h2⟩ := h _ hv
    simp [unify, h1, inst, h2]
  | false =>
    rw [unify_closed (hc v hv hi)]
    cases v <;> simp_all [Value.isVar, inst]

/-- What composition of a phrase gives: a query whose variables are the incoming ones and new ones, and that has solutions, for given
values of the incoming variables, if and only if the phrase is true of those. -/
structure PhraseOk (ar : String → Option Nat) (P : Program) (inc : List String) (m n : Nat) (q : Query) (meaning : List Value → Prop) : Prop where
  ok : QueryOk ar q
  closed : ConstsClosed q
  vars : ∀ x ∈ queryVars q, x ∈ inc ∨ Fresh m n x
  iff : ∀ σ : Assignment, (∀ x, Plain (σ x)) →
    ((∃ σ' : Assignment, (∀ x, Plain (σ' x)) ∧ (∀ v, ¬ Fresh m n v → σ' v = σ v) ∧ AllTrue P q σ') ↔ meaning (inc.map σ))

/-- The same for the children of a node with the map `d`. -/
structure PhrasesOk (ar : String → Option Nat) (P : Program) (d : Dict String) (m n : Nat) (qs : List Query) (meaning : Assignment → Prop) :
    Prop where
  ok : ∀ q ∈ qs, QueryOk ar q
  closed : ∀ q ∈ qs, ConstsClosed q
  vars : ∀ q ∈ qs, ∀ x ∈ queryVars q, (∃ y, d.get y = some x) ∨ Fresh m n x
  iff : ∀ σ τ : Assignment, (∀ x, Plain (σ x)) → (∀ x v, d.get x = some v → σ v = τ x) →
    ((∃ σ' : Assignment, (∀ x, Plain (σ' x)) ∧ (∀ v, ¬ Fresh m n v → σ' v = σ v) ∧ ∀ q ∈ qs, AllTrue P q σ') ↔ meaning τ)

section
variable {ar : String → Option Nat} {P : Program} {own : GRule Attachment → List Value → Query}

theorem PhrasesOk.nil {d : Dict String} {m n : Nat} : PhrasesOk ar P d m n [] (fun _ => True) :=
  ⟨by simp, by simp, by simp, fun σ τ hσ _ => ⟨fun _ => trivial, fun _ => ⟨σ, hσ, fun _ _ => rfl, by simp⟩⟩⟩

open Classical in
theorem PhrasesOk.cons {d : Dict String} {l m n : Nat} {inc as : List String} {q : Query} {qs : List Query} {mean : List Value → Prop}
    {means : Assignment → Prop} (hlm : l ≤ m) (hmn : m ≤ n) (hd : OldMap d l) (hinc : mapAll d as = .ok inc) (h1 : PhraseOk ar P inc l m q mean)
    (h2 : PhrasesOk ar P d m n qs means) : PhrasesOk ar P d l n (q :: qs) (fun τ => mean (as.map τ) ∧ means τ) := by
  obtain ⟨hlen, hget⟩ := mapAll_get hinc
  have hincd : ∀ v ∈ inc, ∃ y, d.get y = some v := by
    intro v hv
    obtain ⟨j, hj⟩ := List.getElem?_of_mem hv
    have hlt : j < as.length := by rw [← hlen]; exact (List.getElem?_eq_some_iff.1 hj).1
    obtain ⟨u, hu1, hu2⟩ := hget j as[j] (by simp [hlt])
    rw [hj] at hu2; cases hu2
    exact ⟨_, hu1⟩
  have hincold : ∀ v ∈ inc, Fresh 0 l v := fun v hv => by obtain ⟨y, hy⟩ := hincd v hv; exact hd y v hy
  have hmap : ∀ σ τ : Assignment, (∀ x v, d.get x = some v → σ v = τ x) → inc.map σ = as.map τ := by
    intro σ τ h
    apply List.ext_getElem?
    intro j
    simp only [List.getElem?_map]
    cases hj : as[j]? with
    | none =>
      have : inc[j]? = none := by rw [List.getElem?_eq_none_iff] at hj ⊢; omega
      simp [this]
    | some a =>
      obtain ⟨v, hv1, hv2⟩ := hget j a hj
      simp [hv2, h a v hv1]
  refine ⟨?_, ?_, ?_, ?_⟩
  · intro q' hq'
    rcases List.mem_cons.1 hq' with rfl | hq'
    · exact h1.ok
    · exact h2.ok q' hq'
  · intro q' hq'
    rcases List.mem_cons.1 hq' with rfl | hq'
    · exact h1.closed
    · exact h2.closed q' hq'
  · intro q' hq' x hx
    rcases List.mem_cons.1 hq' with rfl | hq'
    · rcases h1.vars x hx with h | h
      · exact .inl (hincd x h)
      · exact .inr (h.mono (Nat.le_refl _) hmn)
    · rcases h2.vars q' hq' x hx with h | h
      · exact .inl h
      · exact .inr (h.mono hlm (Nat.le_refl _))
  · intro σ τ hσ hst
    rw [← hmap σ τ hst, ← h1.iff σ hσ, ← h2.iff σ τ hσ hst]
    constructor
    · rintro ⟨σ', hp, hout, hall⟩
      constructor
      · refine ⟨fun v => if Fresh l m v then σ' v else σ v, fun x => ?_, fun v hv => by simp [hv], ?_⟩
        · dsimp only; split
          · exact hp x
          · exact hσ x
        · refine allTrue_congr (σ := σ') (fun x hx => ?_) (hall q (by simp))
          rcases h1.vars x hx with h | h
          · have hnf : ¬ Fresh l m x := fun hf => (hincold x h).disjoint hf (Nat.le_refl _)
            simp only [if_neg hnf]
            exact hout x fun hf => (hincold x h).disjoint hf (Nat.le_refl _)
          · simp [h]
      · refine ⟨fun v => if Fresh m n v then σ' v else σ v, fun x => ?_, fun v hv => by simp [hv], ?_⟩
        · dsimp only; split
          · exact hp x
          · exact hσ x
        · intro q' hq'
          refine allTrue_congr (σ := σ') (fun x hx => ?_) (hall q' (by simp [hq']))
          rcases h2.vars q' hq' x hx with ⟨y, h⟩ | h
          · have hnf : ¬ Fresh m n x := fun hf => (hd y x h).disjoint hf hlm
            simp only [if_neg hnf]
            exact hout x fun hf => (hd y x h).disjoint hf (Nat.le_refl _)
          · simp [h]
    · rintro ⟨⟨σ1, p1, o1, a1⟩, ⟨σ2, p2, o2, a2⟩⟩
      refine ⟨fun v => if Fresh l m v then σ1 v else σ2 v, fun x => ?_, fun v hv => ?_, ?_⟩
      · dsimp only; split
        · exact p1 x
        · exact p2 x
      · have h1 : ¬ Fresh l m v := fun hf => hv (hf.mono (Nat.le_refl _) hmn)
        have h2 : ¬ Fresh m n v := fun hf => hv (hf.mono hlm (Nat.le_refl _))
        simp only [if_neg h1, o2 v h2]
      · intro q' hq'
        rcases List.mem_cons.1 hq' with rfl | hq'
        · refine allTrue_congr (σ := σ1) (fun x hx => ?_) a1
          rcases h1.vars x hx with h | h
          · have hnf : ¬ Fresh l m x := fun hf => (hincold x h).disjoint hf (Nat.le_refl _)
            have hnf2 : ¬ Fresh m n x := fun hf => (hincold x h).disjoint hf hlm
            simp only [if_neg hnf, o1 x hnf, o2 x hnf2]
          · simp [h]
        · refine allTrue_congr (σ := σ2) (fun x hx => ?_) (a2 q' hq')
          have hnf : ¬ Fresh l m x := by
            intro hf
            rcases h2.vars q' hq' x hx with ⟨y, h⟩ | h
            · exact (hd y x h).disjoint hf (Nat.le_refl _)
            · exact hf.disjoint h (Nat.le_refl _)
          simp only [if_neg hnf]

open Classical in
/-- One node. -/
theorem node_phrase {cat form : Str} {cs : List (ParseTree Attachment)} {r : GRule Attachment} {inc : List String} {d d' : Dict String}
    {g g1 g2 g3 : Gen} {qs : List Query} {q0 : Query} (hc : ConjNode ar own cs r) (hlen : inc.length = r.ante.args.length)
    (hold : ∀ v ∈ inc, Fresh 0 g.number v) (hd : createMap r inc g = .ok g1 d) (hg2 : g1.number ≤ g2.number)
    (hk : PhrasesOk ar P d g1.number g2.number qs (MeansAll P own cs r.cons)) (hx : extendMap d (toQuery q0) g2 = .ok g3 d')
    (hq0 : ∀ a, a ∈ q0 ↔ a ∈ own r (leafSems cs) ∨ ∃ l ∈ qs, a ∈ l) :
    PhraseOk ar P inc g.number g3.number (q0.map (unifyAtom d')) (Means P own (.node cat cs form r)) := by
  have hg1 := (advances_createMap _ _).le hd
  have hg3 := (advances_extendMap _ _).le hx
  obtain ⟨m1, m2, m3, m4⟩ := createMap_spec hd
  obtain ⟨x1, x2, x3⟩ := extendMap_grows hx
  have hante : ∀ (j : Nat) a, (argNames r.ante)[j]? = some a → ∃ v, inc[j]? = some v ∧ d.get a = some v := by
    intro j a hj
    refine m1 a j ⟨hj, fun k hk hk' => ?_⟩
    have := (List.getElem?_inj (List.getElem?_eq_some_iff.1 hj).1 hc.nodup).1 (hj.trans hk'.symm)
    omega
  have hdold : OldMap d g1.number := by
    intro x v hxv
    by_cases ha : x ∈ argNames r.ante
    · obtain ⟨j, hj⟩ := List.getElem?_of_mem ha
      obtain ⟨u, hu1, hu2⟩ := hante j x hj
      rw [hxv] at hu2; cases hu2
      exact (hold v (List.mem_of_getElem? hu1)).mono (Nat.le_refl _) hg1
    · exact (m2 x v hxv ha).1.mono (Nat.zero_le _) (Nat.le_refl _)
  -- the keys of the map are not generated names
  have hkeys : ∀ x, isGenName x = true → d'.get x = none := by
    intro x hgx
    cases hv : d'.get x with
    | none => rfl
    | some v =>
      exfalso
      rcases x1.fresh x v hv with h | ⟨h, _⟩
      · have : x ∈ formalNames r := by
          by_cases ha : x ∈ argNames r.ante
          · simp [formalNames, ha]
          · obtain ⟨_, k, hk, hxk⟩ := m2 x v h ha
            simp only [formalNames, List.mem_append, List.mem_flatMap]
            exact .inr ⟨k, hk, hxk⟩
        rw [hc.names x this] at hgx; simp at hgx
      · rw [x3 x v hv h] at hgx; simp at hgx
  have hkidgen : ∀ l ∈ qs, ∀ x ∈ queryVars l, isGenName x = true := by
    intro l hl x hxl
    rcases hk.vars l hl x hxl with ⟨y, h⟩ | h
    · exact isGenName_fresh (hdold y x h)
    · exact isGenName_fresh h
  have hkid : ∀ l ∈ qs, ∀ a ∈ l, unifyAtom d' a = a := fun l hl a ha =>
    unifyAtom_keep (hk.closed l hl) (fun x hxl => hkeys x (hkidgen l hl x hxl)) ha
  have hown : ∀ x ∈ queryVars (own r (leafSems cs)), ∃ v, d'.get x = some v := by
    intro x hxo
    obtain ⟨a, ha, hxa⟩ := mem_queryVars.1 hxo
    obtain ⟨items, hi, hv⟩ := x2 (q0.map toAtom) rfl (toAtom a) (List.mem_map_of_mem ((hq0 a).2 (.inl ha)))
    simp only [toAtom, iterItems, Except.ok.injEq] at hi
    subst hi
    rcases hv x (by simp [hxa]) with h | h
    · exact h
    · rw [hc.ownNames x hxo] at h; simp at h
  -- where the names come from
  have hsrc : ∀ x v, d'.get x = some v → (x ∈ argNames r.ante ∧ d.get x = some v ∧ v ∈ inc) ∨
      (x ∉ argNames r.ante ∧ Fresh g.number g3.number v) := by
    intro x v hv
    rcases x1.fresh x v hv with h | ⟨h, hf⟩
    · by_cases ha : x ∈ argNames r.ante
      · obtain ⟨j, hj⟩ := List.getElem?_of_mem ha
        obtain ⟨u, hu1, hu2⟩ := hante j x hj
        rw [h] at hu2; cases hu2
        exact .inl ⟨ha, h, List.mem_of_getElem? hu1⟩
      · exact .inr ⟨ha, (m2 x v h ha).1.mono (Nat.le_refl _) (Nat.le_trans hg2 hg3)⟩
    · refine .inr ⟨fun ha => ?_, hf.mono (Nat.le_trans hg1 hg2) (Nat.le_refl _)⟩
      obtain ⟨j, hj⟩ := List.getElem?_of_mem ha
      obtain ⟨u, _, hu2⟩ := hante j x hj
      rw [h] at hu2; cases hu2
  have hinj : ∀ x y v, d'.get x = some v → d'.get y = some v → x ∉ argNames r.ante → y ∉ argNames r.ante → x = y := by
    intro x y v hxv hyv hxa hya
    rcases x1.fresh x v hxv with h | ⟨h, hf⟩ <;> rcases x1.fresh y v hyv with h' | ⟨h', hf'⟩
    · exact m3 x y v h h' hxa hya
    · exact absurd hf' fun hf' => (hdold x v h).disjoint hf' hg2
    · exact absurd hf fun hf => (hdold y v h').disjoint hf hg2
    · exact x1.inj x y v hxv hyv h h'
  -- truth of the query in terms of the parts
  have htrue : ∀ (σ τ : Assignment), (∀ x ∈ queryVars (own r (leafSems cs)), ∃ y, d'.get x = some y ∧ σ y = τ x) →
      (AllTrue P (q0.map (unifyAtom d')) σ ↔ AllTrue P (own r (leafSems cs)) τ ∧ ∀ l ∈ qs, AllTrue P l σ) := by
    intro σ τ hst
    have hinst : ∀ a ∈ own r (leafSems cs), ((unifyAtom d' a).2.map (inst σ)) = a.2.map (inst τ) := by
      intro a ha
      exact inst_unify (fun v hv hi => (hc.ownClosed a ha v hv hi).1) fun x hxa => hst x (mem_queryVars.2 ⟨a, ha, hxa⟩)
    constructor
    · intro h
      refine ⟨fun a ha => ?_, fun l hl a ha => ?_⟩
      · have := h (unifyAtom d' a) (List.mem_map_of_mem ((hq0 a).2 (.inl ha)))
        rwa [hinst a ha] at this
      · have := h (unifyAtom d' a) (List.mem_map_of_mem ((hq0 a).2 (.inr ⟨l, hl, ha⟩)))
        rwa [hkid l hl a ha] at this
    · rintro ⟨h1, h2⟩ a' ha'
      obtain ⟨a, ha, rfl⟩ := List.mem_map.1 ha'
      rcases (hq0 a).1 ha with h | ⟨l, hl, h⟩
      · rw [hinst a h]; exact h1 a h
      · rw [hkid l hl a h]; exact h2 l hl a h
  refine ⟨?_, ?_, ?_, ?_⟩
  · intro a' ha'
    obtain ⟨a, ha, rfl⟩ := List.mem_map.1 ha'
    rcases (hq0 a).1 ha with h | ⟨l, hl, h⟩
    · obtain ⟨h1, h2⟩ := hc.ownOk a h
      refine ⟨by simpa [unifyAtom] using h1, ?_⟩
      intro v hv hvv
      simp only [unifyAtom, List.mem_map] at hv
      obtain ⟨u, hu, rfl⟩ := hv
      cases hui : u.isVar with
      | false =>
        rw [unify_closed (hc.ownClosed a h u hu hui).1]
        exact h2 u hu hui
      | true =>
        cases u <;> simp [Value.isVar] at hui
        rename_i x
        simp only [unify] at hvv
        split at hvv <;> simp [Value.isVar] at hvv
    · rw [hkid l hl a h]; exact hk.ok l hl a h
  · intro a' ha'
    obtain ⟨a, ha, rfl⟩ := List.mem_map.1 ha'
    rcases (hq0 a).1 ha with h | ⟨l, hl, h⟩
    · intro v hv hvv
      simp only [unifyAtom, List.mem_map] at hv
      obtain ⟨u, hu, rfl⟩ := hv
      cases hui : u.isVar with
      | false =>
        have := hc.ownClosed a h u hu hui
        rw [unify_closed this.1]; exact this
      | true =>
        cases u <;> simp [Value.isVar] at hui
        rename_i x
        simp only [unify] at hvv
        split at hvv <;> simp [Value.isVar] at hvv
    · rw [hkid l hl a h]; exact hk.closed l hl a h
  · intro x hxq
    obtain ⟨a', ha', hxa⟩ := mem_queryVars.1 hxq
    obtain ⟨a, ha, rfl⟩ := List.mem_map.1 ha'
    rcases (hq0 a).1 ha with h | ⟨l, hl, h⟩
    · simp only [unifyAtom, List.mem_map] at hxa
      obtain ⟨u, hu, hux⟩ := hxa
      have huv : u.isVar = true := by
        cases hui : u.isVar with
        | true => rfl
        | false =>
          rw [unify_closed (hc.ownClosed a h u hu hui).1] at hux
          subst hux; simp [Value.isVar] at hui
      cases u <;> simp [Value.isVar] at huv
      rename_i z
      obtain ⟨v, hv⟩ := hown z (mem_queryVars.2 ⟨a, h, hu⟩)
      simp only [unify, hv, Value.var.injEq] at hux
      subst hux
      rcases hsrc z v hv with ⟨_, _, h⟩ | ⟨_, h⟩
      · exact .inl h
      · exact .inr h
    · rw [hkid l hl a h] at hxa
      rcases hk.vars l hl x (mem_queryVars.2 ⟨a, h, hxa⟩) with ⟨y, h⟩ | h
      · rcases hsrc y x (x1.keep y x h) with ⟨_, _, h⟩ | ⟨_, h⟩
        · exact .inl h
        · exact .inr h
      · exact .inr (h.mono hg1 hg3)
  · intro σ hσ
    simp only [Means]
    constructor
    · rintro ⟨σ', hp, hout, hall⟩
      let τ : Assignment := fun x => match d'.get x with
        | some v => σ' v
        | none => .num 0
      have hτ : ∀ x v, d'.get x = some v → σ' v = τ x := by
        intro x v hv; simp only [τ, hv]
      obtain ⟨t1, t2⟩ := (htrue σ' τ (fun x hxo => by obtain ⟨v, hv⟩ := hown x hxo; exact ⟨v, hv, hτ x v hv⟩)).1 hall
      refine ⟨τ, fun x => ?_, ?_, t1, ?_⟩
      · simp only [τ]
        split
        · exact hp _
        · exact ⟨by simp, rfl, rfl⟩
      · apply List.ext_getElem?
        intro j
        simp only [List.getElem?_map]
        cases hj : (argNames r.ante)[j]? with
        | none =>
          have : inc[j]? = none := by
            rw [List.getElem?_eq_none_iff] at hj ⊢
            simp only [argNames, List.length_map] at hj
            omega
          simp [this]
        | some a =>
          obtain ⟨v, hv1, hv2⟩ := hante j a hj
          have hvold : ¬ Fresh g.number g3.number v := fun hf => (hold v (List.mem_of_getElem? hv1)).disjoint hf (Nat.le_refl _)
          simp [hv1, ← hτ a v (x1.keep a v hv2), hout v hvold]
      · exact (hk.iff σ' τ hp (fun x v h => hτ x v (x1.keep x v h))).1 ⟨σ', hp, fun _ _ => rfl, t2⟩
    · rintro ⟨τ, hp, hvals, t1, t2⟩
      have hantev : ∀ (x v), x ∈ argNames r.ante → d'.get x = some v → σ v = τ x := by
        intro x v ha hv
        obtain ⟨j, hj⟩ := List.getElem?_of_mem ha
        obtain ⟨u, hu1, hu2⟩ := hante j x hj
        rw [x1.keep x u hu2] at hv; cases hv
        have := congrArg (fun l => l[j]?) hvals
        simp only [List.getElem?_map, hj, hu1, Option.map_some, Option.some.injEq] at this
        exact this.symm
      let σ1 : Assignment := fun v => if h : ∃ x, x ∉ argNames r.ante ∧ d'.get x = some v then τ h.choose else σ v
      have hσ1p : ∀ x, Plain (σ1 x) := by
        intro x; simp only [σ1]; split
        · exact hp _
        · exact hσ x
      have hσ1 : ∀ x v, d'.get x = some v → σ1 v = τ x := by
        intro x v hv
        rcases hsrc x v hv with ⟨ha, _, hinc⟩ | ⟨ha, hf⟩
        · have hno : ¬ ∃ y, y ∉ argNames r.ante ∧ d'.get y = some v := by
            rintro ⟨y, hy, hyv⟩
            rcases hsrc y v hyv with ⟨h, _⟩ | ⟨_, hf⟩
            · exact hy h
            · exact (hold v hinc).disjoint hf (Nat.le_refl _)
          simp only [σ1, dif_neg hno]
          exact hantev x v ha hv
        · have hex : ∃ y, y ∉ argNames r.ante ∧ d'.get y = some v := ⟨x, ha, hv⟩
          simp only [σ1, dif_pos hex]
          rw [hinj _ x v hex.choose_spec.2 hv hex.choose_spec.1 ha]
      have hσ1out : ∀ v, ¬ Fresh g.number g3.number v → σ1 v = σ v := by
        intro v hv
        have hno : ¬ ∃ y, y ∉ argNames r.ante ∧ d'.get y = some v := by
          rintro ⟨y, hy, hyv⟩
          rcases hsrc y v hyv with ⟨h, _⟩ | ⟨_, hf⟩
          · exact hy h
          · exact hv hf
        simp only [σ1, dif_neg hno]
      obtain ⟨σ', p', o', a'⟩ := (hk.iff σ1 τ hσ1p (fun x v h => hσ1 x v (x1.keep x v h))).2 t2
      refine ⟨σ', p', fun v hv => ?_, (htrue σ' τ fun x hxo => ?_).2 ⟨t1, a'⟩⟩
      · rw [o' v fun hf => hv (hf.mono hg1 hg3), hσ1out v hv]
      · obtain ⟨v, hv⟩ := hown x hxo
        refine ⟨v, hv, ?_⟩
        rw [o' v, hσ1 x v hv]
        intro hf
        rcases x1.fresh x v hv with h | ⟨_, h⟩
        · exact (hdold x v h).disjoint hf (Nat.le_refl _)
        · exact hf.disjoint h (Nat.le_refl _)

mutual
theorem compose_means : ∀ (t : ParseTree Attachment) (inc : List String) (g g' : Gen) (c : Composed), t.children ≠ [] →
    Conjunctive ar own t → inc.length = t.rule.ante.args.length → (∀ v ∈ inc, Fresh 0 g.number v) → compose t inc g = .ok g' c →
    ∃ q, c.sem = toQuery q ∧ PhraseOk ar P inc g.number g'.number q (Means P own t)
  | .node cat cs form r, inc, g, g', c, hne, ht, hlen, hold, h => by
    simp only [Conjunctive] at ht
    obtain ⟨hc, hcs⟩ := ht
    have hc := hc hne
    unfold compose at h
    rw [M.bind_eq_ok] at h
    obtain ⟨g1, d, hd, h⟩ := h
    rw [M.bind_eq_ok] at h
    obtain ⟨g2, parts, hp, h⟩ := h
    have hg1 := (advances_createMap _ _).le hd
    have hg2 := (advances_composeChildren _ _ _ _ _).le hp
    obtain ⟨m1, m2, _, _⟩ := createMap_spec hd
    have hdold : OldMap d g1.number := by
      intro x v hx
      by_cases ha : x ∈ argNames r.ante
      · obtain ⟨j, hj⟩ := LastArg.exists ha
        obtain ⟨u, hu1, hu2⟩ := m1 x j hj
        rw [hx] at hu2
        cases hu2
        exact (hold v (List.mem_of_getElem? hu1)).mono (Nat.le_refl _) hg1
      · exact (m2 x v hx ha).1.mono (Nat.zero_le _) (Nat.le_refl _)
    obtain ⟨qs, hl, hs, hk⟩ := composeChildren_means cs r.cons d 0 ⟨[], [], [], []⟩ g1 g2 parts hcs hc.length hc.arity hdold hp
    cases hsem : semOf r.sem with
    | none => simp [hsem] at h
    | some f =>
      simp only [hsem, M.bind_eq_ok, M.lift_eq_ok, M.pure_eq_ok] at h
      obtain ⟨_, s, ⟨rfl, hf⟩, _, ex, ⟨rfl, _⟩, _, dg, ⟨rfl, _⟩, g3, d', hx, rfl, rfl⟩ := h
      simp only [List.nil_append] at hs
      rw [hs] at hf
      obtain ⟨q0, rfl, hq0⟩ := hc.sem f hsem qs s hl hf
      exact ⟨q0.map (unifyAtom d'), unify_toQuery d' q0, node_phrase hc hlen hold hd hg2 hk hx hq0⟩
theorem composeChildren_means : ∀ (cs : List (ParseTree Attachment)) (ks : List Constituent) (d : Dict String) (i : Nat)
    (acc : ChildParts) (g g' : Gen) (parts : ChildParts), ConjunctiveAll ar own cs → ks.length = cs.length →
    (∀ (i : Nat) c k, cs[i]? = some c → ks[i]? = some k → c.children ≠ [] → k.args.length = c.rule.ante.args.length) →
    OldMap d g.number → composeChildren cs ks d i acc g = .ok g' parts →
    ∃ qs : List Query, qs.length = innerCount cs ∧ parts.sems = acc.sems ++ childSems cs qs ∧
      PhrasesOk ar P d g.number g'.number qs (MeansAll P own cs ks)
  | [], ks, d, i, acc, g, g', parts, _, _, _, _, h => by
    simp only [composeChildren, M.pure_eq_ok] at h
    obtain ⟨rfl, rfl⟩ := h
    refine ⟨[], rfl, by simp [childSems], ?_⟩
    simp only [MeansAll]
    exact PhrasesOk.nil
  | _ :: _, [], d, i, acc, g, g', parts, _, hl, _, _, h => by simp at hl
  | .node cat cs form r :: rest, k :: ks, d, i, acc, g, g', parts, hc, hl, har, hd, h => by
    simp only [ConjunctiveAll] at hc
    obtain ⟨hc1, hc2⟩ := hc
    have hl' : ks.length = rest.length := by simpa using hl
    have har' : ∀ (i : Nat) c k, rest[i]? = some c → ks[i]? = some k → c.children ≠ [] → k.args.length = c.rule.ante.args.length :=
      fun i c k h1 h2 => har (i + 1) c k (by simpa using h1) (by simpa using h2)
    cases cs with
    | nil =>
      have hm : MeansAll P own (.node cat [] form r :: rest) (k :: ks) = MeansAll P own rest ks := by
        funext τ; simp [MeansAll, ParseTree.children]
      rw [hm]
      have hn : innerCount (.node cat [] form r :: rest) = innerCount rest := by simp [innerCount, ParseTree.children]
      rw [hn]
      unfold composeChildren at h
      simp only [List.isEmpty_nil, if_true] at h
      cases hsem : semOf r.sem with
      | none =>
        simp only [hsem] at h
        obtain ⟨qs, a1, a2, a3⟩ := composeChildren_means rest ks d (i + 1) acc g g' parts hc2 hl' har' hd h
        refine ⟨qs, a1, ?_, a3⟩
        simp [a2, childSems, ParseTree.children, ParseTree.rule, leafSem, hsem]
      | some f =>
        simp only [hsem, M.bind_eq_ok, M.lift_eq_ok] at h
        obtain ⟨g1, s, ⟨rfl, hf⟩, h⟩ := h
        obtain ⟨qs, a1, a2, a3⟩ := composeChildren_means rest ks d (i + 1) _ g g' parts hc2 hl' har' hd h
        refine ⟨qs, a1, ?_, a3⟩
        simp [a2, childSems, ParseTree.children, ParseTree.rule, leafSem, hsem, hf]
    | cons c0 cs0 =>
      unfold composeChildren at h
      simp only [List.isEmpty_cons, Bool.false_eq_true, if_false, M.bind_eq_ok, M.lift_eq_ok] at h
      obtain ⟨g1, inc, ⟨rfl, hinc⟩, g2, c, hcomp, h⟩ := h
      have hle1 := (advances_compose _ _).le hcomp
      have hle2 := (advances_composeChildren _ _ _ _ _).le h
      obtain ⟨hlen, hget⟩ := mapAll_get hinc
      have hincold : ∀ v ∈ inc, Fresh 0 g.number v := by
        intro v hv
        obtain ⟨j, hj⟩ := List.getElem?_of_mem hv
        have hlt : j < (argNames k).length := by rw [← hlen]; exact (List.getElem?_eq_some_iff.1 hj).1
        obtain ⟨u, hu1, hu2⟩ := hget j (argNames k)[j] (by simp [hlt])
        rw [hj] at hu2; cases hu2
        exact hd _ _ hu1
      have hak : k.args.length = r.ante.args.length := har 0 _ k rfl rfl (by simp [ParseTree.children])
      obtain ⟨q, hq, hph⟩ := compose_means (.node cat (c0 :: cs0) form r) inc g g2 c (by simp [ParseTree.children]) hc1
        (by simp only [ParseTree.rule]; rw [hlen, ← hak]; simp [argNames]) hincold hcomp
      obtain ⟨qs, a1, a2, a3⟩ := composeChildren_means rest ks d (i + 1) _ g2 g' parts hc2 hl' har'
        (fun x v hx => (hd x v hx).mono (Nat.le_refl _) hle1) h
      refine ⟨q :: qs, ?_, ?_, ?_⟩
      · simp [innerCount, ParseTree.children] at a1 ⊢; exact a1
      · simp [a2, childSems, ParseTree.children, hq]
      · have := PhrasesOk.cons hle1 hle2 hd hinc hph a3
        have hm : MeansAll P own (.node cat (c0 :: cs0) form r :: rest) (k :: ks) =
            fun τ => Means P own (.node cat (c0 :: cs0) form r) ((argNames k).map τ) ∧ MeansAll P own rest ks τ := by
          funext τ; simp [MeansAll, ParseTree.children]
        rw [hm]; exact this
end

/-- The answer gives the root variables these values, as far as it binds them. -/
def Fits (b : Binding) (roots : List String) (vals : List Value) : Prop :=
  ∀ (j : Nat) r v, roots[j]? = some r → vals[j]? = some v → b.get r = none ∨ b.get r = some v

theorem nextVars_nodup {as : List Str} {g g' : Gen} {vs : List String} (h : nextVars as g = .ok g' vs) :
    ∀ (i j : Nat) v, vs[i]? = some v → vs[j]? = some v → i = j := by
  obtain ⟨_, _, a3⟩ := nextVars_roots h
  intro i j v hi hj
  have := genName_injective ((a3 i v hi).symm.trans (a3 j v hj))
  omega

/-- An assignment that gives the root variables the values. -/
theorem exists_assignment {roots : List String} (hnd : ∀ (i j : Nat) v, roots[i]? = some v → roots[j]? = some v → i = j) {vals : List Value}
    (hlen : vals.length = roots.length) (hp : ∀ v ∈ vals, Plain v) (base : Assignment) (hb : ∀ x, Plain (base x)) :
    ∃ σ : Assignment, (∀ x, Plain (σ x)) ∧ roots.map σ = vals ∧ ∀ x, x ∉ roots → σ x = base x := by
  refine ⟨fun x => (vals[roots.idxOf x]?).getD (base x), fun x => ?_, ?_, fun x hx => ?_⟩
  · dsimp only
    cases h : vals[roots.idxOf x]? with
    | none => exact hb x
    | some v => exact hp v (List.mem_of_getElem? h)
  · apply List.ext_getElem?
    intro j
    simp only [List.getElem?_map]
    cases hj : roots[j]? with
    | none =>
      have : vals[j]? = none := by rw [List.getElem?_eq_none_iff] at hj ⊢; omega
      simp [this]
    | some r =>
      have hr : r ∈ roots := List.mem_of_getElem? hj
      have hlt := List.idxOf_lt_length_of_mem hr
      have h1 : roots[roots.idxOf r]? = some r := by rw [List.getElem?_eq_getElem hlt]; simp
      rw [Option.map_some, hnd _ _ r h1 hj]
      have hjl : j < vals.length := by rw [hlen]; exact (List.getElem?_eq_some_iff.1 hj).1
      simp [List.getElem?_eq_getElem hjl]
  · have : vals[roots.idxOf x]? = none := by
      rw [List.getElem?_eq_none_iff, List.idxOf_eq_length hx, hlen]
      exact Nat.le_refl _
    simp [this]

/-- **C69** The composed meaning of a sentence is a query, and the query is true for some values of its other variables, given values of
the root variables, if and only if the sentence is true of these. -/
theorem C69_composed_iff_means (P : Program) {t : ParseTree Attachment} {g g' : Gen} {roots : List String} {c : Composed}
    (hne : t.children ≠ []) (ht : Conjunctive ar own t) (h : composeSentence t g = .ok g' (roots, c)) :
    ∃ q, c.sem = toQuery q ∧ QueryOk ar q ∧ ConstsClosed q ∧
      ∀ vals : List Value, (∃ σ : Assignment, (∀ x, Plain (σ x)) ∧ roots.map σ = vals ∧ AllTrue P q σ) ↔ Means P own t vals := by
  obtain ⟨g1, h1, h2, _⟩ := composeSentence_parts h
  obtain ⟨a1, a2, a3⟩ := nextVars_roots h1
  obtain ⟨q, hq, hph⟩ := compose_means (ar := ar) (P := P) (own := own) t roots g1 g' c hne ht a2 (by
    intro v hv
    obtain ⟨j, hj⟩ := List.getElem?_of_mem hv
    have hlt : j < roots.length := (List.getElem?_eq_some_iff.1 hj).1
    exact ⟨g.number + j + 1, by omega, by omega, a3 j v hj⟩) h2
  refine ⟨q, hq, hph.ok, hph.closed, fun vals => ?_⟩
  constructor
  · rintro ⟨σ, hσ, rfl, hall⟩
    exact (hph.iff σ hσ).1 ⟨σ, hσ, fun _ _ => rfl, hall⟩
  · intro hm
    have hvals : vals.length = roots.length ∧ ∀ v ∈ vals, Plain v := by
      cases t with
      | node cat cs form r =>
        simp only [Means] at hm
        obtain ⟨τ, hτ, rfl, _⟩ := hm
        refine ⟨by simpa [argNames, ParseTree.rule] using a2.symm, fun v hv => ?_⟩
        obtain ⟨x, _, rfl⟩ := List.mem_map.1 hv
        exact hτ x
    obtain ⟨σ, hσ, rfl, _⟩ := exists_assignment (nextVars_nodup h1) hvals.1 hvals.2 (fun _ => .num 0) (fun _ => ⟨by simp, rfl, rfl⟩)
    obtain ⟨σ', p', o', a'⟩ := (hph.iff σ hσ).2 hm
    refine ⟨σ', p', ?_, a'⟩
    apply List.map_congr_left
    intro v hv
    apply o'
    intro hf
    obtain ⟨j, hj⟩ := List.getElem?_of_mem hv
    have hlt : j < roots.length := (List.getElem?_eq_some_iff.1 hj).1
    have hold : Fresh 0 g1.number v := ⟨g.number + j + 1, by omega, by omega, a3 j v hj⟩
    exact hold.disjoint hf (Nat.le_refl _)

/-- From answers to values of the root variables. -/
theorem fits_iff {P : Program} {q : Query} {roots : List String} {bs : List Binding} (hs : SoundB P q [] bs) (hc : CompleteB P q [] bs)
    (hnd : ∀ (i j : Nat) v, roots[i]? = some v → roots[j]? = some v → i = j) {vals : List Value} (hlen : vals.length = roots.length)
    (hp : ∀ v ∈ vals, Plain v) :
    (∃ b ∈ bs, Fits b roots vals) ↔ ∃ σ : Assignment, (∀ x, Plain (σ x)) ∧ roots.map σ = vals ∧ AllTrue P q σ := by
  constructor
  · rintro ⟨b, hb, hf⟩
    obtain ⟨p1, _, _, d1⟩ := hs b hb
    obtain ⟨σ, h1, h2, h3⟩ := exists_assignment hnd hlen hp (completion b) (completion_plain p1)
    refine ⟨σ, h1, h2, fun a ha => d1 σ ?_ a ha⟩
    intro x v hx
    by_cases hxr : x ∈ roots
    · obtain ⟨j, hj⟩ := List.getElem?_of_mem hxr
      have hv := congrArg (fun l => l[j]?) h2
      simp only [List.getElem?_map, hj, Option.map_some] at hv
      rcases hf j x (σ x) hj hv.symm with h | h
      · rw [h] at hx; cases hx
      · rw [h] at hx; cases hx; rfl
    · rw [h3 x hxr]; exact completion_agrees b x v hx
  · rintro ⟨σ, h1, rfl, h3⟩
    obtain ⟨b, hb, hag⟩ := hc σ h1 (fun x v hx => by simp at hx) h3
    refine ⟨b, hb, fun j r v hj hv => ?_⟩
    simp only [List.getElem?_map, hj, Option.map_some, Option.some.injEq] at hv
    cases hx : b.get r with
    | none => exact .inl rfl
    | some u => rw [← hv, hag r u hx]; exact .inr rfl

/-- **C69** The answers to a sentence, asked of a model with facts and rules, are exactly the values that the sentence is true of. -/
theorem C69_answers {W : Type} {tables : List (Dict (List (List Value)))} {rs : List HornRule} (K : KnowledgeBase W ar tables rs)
    (hrr : HeadsBound rs) {t : ParseTree Attachment} {g g' : Gen} {roots : List String} {c : Composed}
    (hne : t.children ≠ []) (ht : Conjunctive ar own t) (h : composeSentence t g = .ok g' (roots, c)) :
    ∃ q, c.sem = toQuery q ∧ ∀ n w' bs, K.ask n q [] = .ok w' (.rows bs) → ∀ vals : List Value, vals.length = roots.length →
      (∀ v ∈ vals, Plain v) → ((∃ b ∈ bs, Fits b roots vals) ↔ Means (program tables rs) own t vals) := by
  obtain ⟨q, hq, hok, _, hiff⟩ := C69_composed_iff_means (program tables rs) hne ht h
  obtain ⟨g1, h1, _, _⟩ := composeSentence_parts h
  refine ⟨q, hq, fun n w' bs hask vals hlen hp => ?_⟩
  obtain ⟨s1, _, c1⟩ := K.exact hok (fun x v hx => by simp at hx) hask
  rw [← hiff, fits_iff s1 (c1 hrr) (nextVars_nodup h1) hlen hp]

end

end Verif
