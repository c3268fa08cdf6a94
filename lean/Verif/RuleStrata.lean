import Verif.RuleFormsMain

/-!
# Rules that are stratified say something: they have a supported interpretation
-/

namespace Verif

mutual
/-- All predicates that are used. -/
def Form.preds : Form → List String
  | .atom p _ => [p]
  | .neg q => formPreds q
  | .thereIsNo q => formPreds q
  | .thereIs q => formPreds q
  | .exactly q _ => formPreds q
  | .moreThan q _ => formPreds q
  | .fewerThan q _ => formPreds q
  | .all _ r q => formPreds r ++ formPreds q
  | .count _ q => formPreds q
  | .either qs => altPreds qs
  | _ => []
/-- Those of a query. -/
def formPreds : List Form → List String
  | [] => []
  | f :: fs => f.preds ++ formPreds fs
/-- Those of alternatives. -/
def altPreds : List (List Form) → List String
  | [] => []
  | q :: qs => formPreds q ++ altPreds qs
end

/-- The part of a body that is a plain atom. -/
def Form.isAtom : Form → Bool
  | .atom _ _ => true
  | _ => false

/-- Rules may be recursive, but not through `not`, quantifiers, numbers and alternatives: predicates have levels such that rules use predicates of
their own level or below, and inside those below only. -/
def Stratified (rules : List FormRule) (level : String → Nat) : Prop :=
  ∀ r ∈ rules, ∀ f ∈ r.body, ∀ p ∈ f.preds, if f.isAtom then level p ≤ level r.pred else level p < level r.pred

mutual
theorem sat_preds {P P' : Program} : ∀ (f : Form), (∀ p ∈ f.preds, ∀ v, Derivable P p v ↔ Derivable P' p v) → Sat P f = Sat P' f
  | .atom p args, h => by
    funext B σ
    simp only [Sat, h p (by simp [Form.preds])]
  | .neg q, h => by
    have := satAll_preds q h
    funext B σ
    simp only [Sat, this]
  | .thereIsNo q, h => by
    have := satAll_preds q h
    funext B σ
    simp only [Sat, this]
  | .thereIs q, h => by
    have := satAll_preds q h
    funext B σ
    simp only [Sat, this]
  | .exactly q n, h => by
    have := satAll_preds q h
    funext B σ
    simp only [Sat, this]
  | .moreThan q n, h => by
    have := satAll_preds q h
    funext B σ
    simp only [Sat, this]
  | .fewerThan q n, h => by
    have := satAll_preds q h
    funext B σ
    simp only [Sat, this]
  | .all x r q, h => by
    have h1 := satAll_preds r fun p hp => h p (by simp [Form.preds, hp])
    have h2 := satAll_preds q fun p hp => h p (by simp [Form.preds, hp])
    funext B σ
    simp only [Sat, h1, h2]
  | .count x q, h => by
    have := satAll_preds q h
    funext B σ
    simp only [Sat, this]
  | .either qs, h => by
    have := satFirst_preds qs h
    funext B σ
    simp only [Sat, this]
  | .equals .., _ => by funext B σ; simp only [Sat]
  | .greater .., _ => by funext B σ; simp only [Sat]
  | .less .., _ => by funext B σ; simp only [Sat]
  | .assign .., _ => by funext B σ; simp only [Sat]
  | .times .., _ => by funext B σ; simp only [Sat]
theorem satAll_preds {P P' : Program} : ∀ (q : List Form), (∀ p ∈ formPreds q, ∀ v, Derivable P p v ↔ Derivable P' p v) → SatAll P q = SatAll P' q
  | [], _ => by funext B σ; simp only [SatAll]
  | f :: fs, h => by
    have h1 := sat_preds f fun p hp => h p (by simp [formPreds, hp])
    have h2 := satAll_preds fs fun p hp => h p (by simp [formPreds, hp])
    funext B σ
    simp only [SatAll, h1, h2]
theorem satFirst_preds {P P' : Program} : ∀ (qs : List (List Form)), (∀ p ∈ altPreds qs, ∀ v, Derivable P p v ↔ Derivable P' p v) →
    SatFirst P qs = SatFirst P' qs
  | [], _ => by funext B σ; simp only [SatFirst]
  | q :: qs, h => by
    have h1 := satAll_preds q fun p hp => h p (by simp [altPreds, hp])
    have h2 := satFirst_preds qs fun p hp => h p (by simp [altPreds, hp])
    funext B σ
    simp only [SatFirst, h1, h2]
end

/-- The parts of a body that are not atoms. -/
def RestAll (P : Program) : List Form → (String → Prop) → Assignment → Prop
  | [], _, _ => True
  | f :: fs, B, σ => (f.isAtom = false → Sat P f B σ) ∧ RestAll P fs (Known.more B f.binds) σ

theorem satAll_split {P : Program} {σ : Assignment} : ∀ {q : List Form} {B : String → Prop},
    SatAll P q B σ ↔ (∀ p args, .atom p args ∈ q → Derivable P p (args.map (inst σ))) ∧ RestAll P q B σ
  | [], B => by simp [SatAll, RestAll]
  | f :: fs, B => by
    simp only [SatAll, RestAll, satAll_split (q := fs), List.mem_cons]
    cases hf : f.isAtom with
    | true =>
      cases f <;> simp only [Form.isAtom, Bool.false_eq_true] at hf
      rename_i p args
      simp only [Sat, Bool.true_eq_false, false_implies, true_and, Form.atom.injEq]
      constructor
      · rintro ⟨h1, h2, h3⟩
        refine ⟨?_, h3⟩
        rintro p' args' (⟨rfl, rfl⟩ | h)
        · exact h1
        · exact h2 _ _ h
      · rintro ⟨h1, h2⟩
        exact ⟨h1 p args (.inl ⟨rfl, rfl⟩), fun p' args' h => h1 p' args' (.inr h), h2⟩
    | false =>
      simp only [true_implies]
      constructor
      · rintro ⟨h1, h2, h3⟩
        refine ⟨?_, h1, h3⟩
        rintro p' args' (rfl | h)
        · simp [Form.isAtom] at hf
        · exact h2 _ _ h
      · rintro ⟨h1, h2, h3⟩
        exact ⟨h2, fun p' args' h => h1 p' args' (.inr h), h3⟩

theorem restAll_preds {P P' : Program} {q : List Form} (h : ∀ f ∈ q, f.isAtom = false → ∀ p ∈ f.preds, ∀ v, Derivable P p v ↔ Derivable P' p v) :
    RestAll P q = RestAll P' q := by
  induction q with
  | nil => funext B σ; simp only [RestAll]
  | cons f fs ih =>
    funext B σ
    simp only [RestAll, ih fun f hf => h f (List.mem_cons_of_mem _ hf)]
    refine propext (and_congr_left fun _ => ?_)
    cases hf : f.isAtom with
    | true => simp
    | false => simp only [true_implies, sat_preds f (h f (by simp) hf)]

section
variable (tables : List (Dict (List (List Value)))) (rules : List FormRule)

/-- What can be derived when the parts of bodies that are not atoms are read in `J`. -/
inductive DerivedIn (J : Interpretation) : Interpretation
  | stored {p vals} : StoredIn tables p vals → DerivedIn J p vals
  | rule {r : FormRule} (σ : Assignment) : r ∈ rules → (∀ x, Plain (σ x)) →
      (∀ p args, .atom p args ∈ r.body → DerivedIn J p (args.map (inst σ))) → RestAll J.facts r.body (· ∈ r.given) σ →
      DerivedIn J r.pred (r.args.map (inst σ))

/-- Level by level. -/
def strata : Nat → Interpretation
  | 0 => fun _ _ => False
  | n + 1 => DerivedIn tables rules (strata n)

variable {tables rules}

theorem derivedIn_le {level : String → Nat} (hs : Stratified rules level) {J J' : Interpretation} {n : Nat}
    (hJ : ∀ p, level p < n → ∀ v, J p v ↔ J' p v) {p : String} {v : List Value} (h : DerivedIn tables rules J p v) (hp : level p ≤ n) :
    DerivedIn tables rules J' p v := by
  induction h with
  | stored h => exact .stored h
  | @rule r σ hr hσ _ hrest ih =>
    refine .rule σ hr hσ (fun p args hm => ih p args hm ?_) ?_
    · have := hs r hr _ hm p (by simp [Form.preds])
      simp only [Form.isAtom, if_true] at this
      omega
    · rw [← restAll_preds (P := J.facts) fun f hf ha p' hp' v => ?_]
      · exact hrest
      · rw [derivable_facts, derivable_facts]
        have := hs r hr f hf p' hp'
        rw [ha] at this
        simp only [Bool.false_eq_true, if_false] at this
        exact hJ p' (by omega) v

theorem strata_stable {level : String → Nat} (hs : Stratified rules level) : ∀ (n : Nat) {p : String}, level p < n → ∀ v,
    (strata tables rules n p v ↔ strata tables rules (n + 1) p v)
  | 0, p, h, v => by omega
  | n + 1, p, h, v => by
    have ih := fun {p} (hp : level p < n) => strata_stable hs n hp
    constructor
    · intro hd
      exact derivedIn_le hs (fun p hp v => ih hp v) hd (by omega)
    · intro hd
      exact derivedIn_le hs (fun p hp v => (ih hp v).symm) hd (by omega)

theorem strata_above {level : String → Nat} (hs : Stratified rules level) {p : String} {v : List Value} {n : Nat} (h : level p < n) :
    strata tables rules n p v ↔ strata tables rules (level p + 1) p v := by
  induction n with
  | zero => omega
  | succ n ih =>
    by_cases hn : level p < n
    · rw [← strata_stable hs n hn, ih hn]
    · have : n = level p := by omega
      rw [this]

theorem stratified_supported {ar : String → Option Nat} {level : String → Nat} (hs : Stratified rules level) :
    Supported ar tables rules fun p v => strata tables rules (level p + 1) p v := by
  intro p vals _
  have hrest : ∀ r ∈ rules, RestAll (Interpretation.facts fun p v => strata tables rules (level p + 1) p v) r.body =
      RestAll (strata tables rules (level r.pred)).facts r.body := by
    intro r hr
    refine restAll_preds fun f hf ha p' hp' v => ?_
    rw [derivable_facts, derivable_facts]
    have := hs r hr f hf p' hp'
    rw [ha] at this
    simp only [Bool.false_eq_true, if_false] at this
    exact (strata_above hs this).symm
  have hatom : ∀ r ∈ rules, ∀ p' args, Form.atom p' args ∈ r.body → ∀ v, strata tables rules (level r.pred + 1) p' v ↔ strata tables rules (level p' + 1) p' v := by
    intro r hr p' args hm v
    have := hs r hr _ hm p' (by simp [Form.preds])
    simp only [Form.isAtom, if_true] at this
    exact strata_above hs (by omega)
  constructor
  · intro h
    cases h with
    | stored h => exact .inl h
    | @rule r σ hr hσ hat hre =>
      refine .inr ⟨r, hr, rfl, σ, hσ, rfl, satAll_split.2 ⟨fun p' args hm => ?_, ?_⟩⟩
      · rw [derivable_facts]
        exact (hatom r hr p' args hm _).1 (hat p' args hm)
      · rw [hrest r hr]
        exact hre
  · rintro (h | ⟨r, hr, rfl, σ, hσ, rfl, hb⟩)
    · exact .stored h
    · obtain ⟨h1, h2⟩ := satAll_split.1 hb
      refine .rule σ hr hσ (fun p' args hm => ?_) ?_
      · have := h1 p' args hm
        rw [derivable_facts] at this
        exact (hatom r hr p' args hm _).2 this
      · rw [← hrest r hr]
        exact h2

end

/-! ## Horn rules -/

/-- A rule whose body consists of atoms. -/
def HornRule.toForm (r : HornRule) : FormRule := { pred := r.pred, args := r.args, body := r.body.map fun a => .atom a.1 a.2, given := [] }

theorem satAll_atoms {P : Program} {σ : Assignment} : ∀ {q : Query} {B : String → Prop},
    SatAll P (q.map fun a => .atom a.1 a.2) B σ ↔ ∀ a ∈ q, Derivable P a.1 (a.2.map (inst σ))
  | [], B => by simp [SatAll]
  | a :: q, B => by simp [SatAll, Sat, satAll_atoms (q := q)]

/-- What follows from the rules is a supported interpretation. -/
theorem horn_supported {ar : String → Option Nat} {tables : List (Dict (List (List Value)))} {rs : List HornRule} :
    Supported ar tables (rs.map HornRule.toForm) (Derivable (program tables rs)) := by
  intro p vals _
  constructor
  · intro h
    cases h with
    | fact h => exact .inl h
    | @rule _ hargs body σ hr hσ hb =>
      refine .inr ⟨_, List.mem_map.2 ⟨_, hr, rfl⟩, rfl, σ, hσ, rfl, ?_⟩
      refine satAll_atoms.2 fun a ha => ?_
      rw [derivable_facts]
      exact hb a ha
  · rintro (h | ⟨r, hr, rfl, σ, hσ, rfl, hb⟩)
    · exact .fact h
    · obtain ⟨r, hr', rfl⟩ := List.mem_map.1 hr
      have hr'' : (program tables rs).rules r.pred r.args r.body := hr'
      refine Derivable.rule σ hr'' hσ fun a ha => ?_
      have := satAll_atoms.1 hb a ha
      rw [derivable_facts] at this
      exact this

end Verif
