import Verif.QueryIsolateRun
import Verif.Props.FirstOrder
import Verif.Props.Isolate

/-!
# C84: optimising queries with negation, quantifiers, numbers and alternatives

When the order of the parts of a query does not matter is in `Verif.QueryOrder`.
-/

namespace Verif

section
variable {W : Type} {ar : String → Option Nat} {tables : List (Dict (List (List Value)))} {rs : List HornRule}

/-- The relations that state how many rows they have, have fewer than 10^12, which counts as infinite (`SortByCost.py:65-66`, `richard/core/constants.py`). -/
def KnowledgeBase.SmallSizes (K : KnowledgeBase W ar tables rs) : Prop :=
  ∀ m ∈ K.others, ∀ p r, m.relations K.world p = some r → ∀ s, r.relationSize = some s → s < 1000000000000

/-- Optimising a query (`BasicQueryOptimizer.py:16-29`). -/
def KnowledgeBase.optimize (K : KnowledgeBase W ar tables rs) (q : List Form) (roots : List String) : Res W (List Value) :=
  Verif.optimize (modelOf K.others) (formValues q) roots K.world

/-- Solving a query that has been optimised (`Solver.py:22-31`). -/
def KnowledgeBase.askAtoms (K : KnowledgeBase W ar tables rs) (n : Nat) (atoms : List Value) (b : Binding) : Res W SolOut :=
  (solverAt (modelOf K.others) n).solve (.list atoms) b K.world

theorem core_unsized {w : W} {p : String} {r : Relation W} (h : (coreModule W).relations w p = some r) : r.relationSize = none := by
  simp only [coreModule] at h
  cases e : (coreTable W).get p with
  | none => rw [e] at h; cases h
  | some f => rw [e] at h; cases h; rfl

theorem pred_core (f : Form) (h1 : f.isFact = false) (h2 : f.isEither = false) : f.pred ∈ coreNames := by
  cases f <;> simp [Form.isFact, Form.isEither] at h1 h2 <;> simp [Form.pred, coreNames]

theorem core_defined {p : String} (h : p ∈ coreNames) : ∃ f, (coreTable W).get p = some f := by
  simp only [coreNames, List.mem_cons, List.not_mem_nil, or_false] at h
  rcases h with rfl | rfl | rfl | rfl | rfl | rfl | rfl | rfl | rfl | rfl | rfl | rfl | rfl <;> exact ⟨_, rfl⟩

theorem KnowledgeBase.fit (K : KnowledgeBase W ar tables rs) (hcore : ∀ p ∈ coreNames, NotDefined K.others K.world p) (hs : K.SmallSizes) :
    SizesFit (findRelations (modelOf K.others) K.world) := by
  refine ⟨?_, ?_⟩
  · intro p r hr s hrs
    rcases (findRelations_cons ..).1 hr with h | h
    · rw [core_unsized h] at hrs; cases hrs
    · obtain ⟨m, hm, e⟩ := List.mem_filterMap.1 h
      exact hs m hm p r e s hrs
  · intro f h1 h2
    have hp := pred_core f h1 h2
    obtain ⟨g, hg⟩ := core_defined (W := W) hp
    rw [sized, findRelations_core (hcore _ hp) hg]
    rfl

/-- What the optimiser makes of a query, as a query: the facts that are moved, then the independent parts. -/
theorem KnowledgeBase.optimize_steps (K : KnowledgeBase W ar tables rs) (hcore : ∀ p ∈ coreNames, NotDefined K.others K.world p)
    (hs : K.SmallSizes) {q : List Form} (hq : FormsSimple q) {roots : List String} {w' : W} {opt : List Value}
    (h : K.optimize q roots = .ok w' opt) :
    w' = K.world ∧ ∃ q1 q2, Adv (Form.early (findRelations (modelOf K.others) K.world)) q q1 ∧ Iso roots q1 q2 ∧ opt = formValues q2 := by
  rw [KnowledgeBase.optimize, Verif.optimize, frontSort_forms hq] at h
  have hl : (M.lift (.ok (formValues q)) : M W _) K.world = .ok K.world (formValues q) := rfl
  rw [M.bind_ok hl] at h
  obtain ⟨w1, s2, h2, h⟩ := M.bind_eq_ok.1 h
  obtain ⟨e1, e2⟩ := M.pure_eq_ok.1 h
  rw [sortComposition, M.bind_ok (M.gets_run _ _)] at h2
  obtain ⟨e3, q1, e4, ha⟩ := sortByCost_forms (K.fit hcore hs) _ _ q _ _ _ hq h2
  obtain ⟨q2, e5, hi⟩ := isolateN_forms q1.length q1 roots (Nat.le_refl _) (ha.simple hq)
  refine ⟨by rw [← e1, e3], q1, q2, ha, hi, ?_⟩
  rw [← e2, e4, isolate, formValues_length, e5]

/-- **C84** Optimising a query keeps its meaning, as far as the root variables are concerned: for a query with negation, quantifiers, numbers
and alternatives whose order does not matter, over facts and (possibly recursive) rules, every answer to the optimised query has all root
variables that the query binds, and its values can be completed to ones that satisfy the query; and whatever satisfies the query, agrees with an
answer to the optimised query. Nothing is changed. -/
theorem C84_optimize_meaning (K : KnowledgeBase W ar tables rs) (hrr : HeadsBound rs) (hcore : ∀ p ∈ coreNames, NotDefined K.others K.world p)
    (hs : K.SmallSizes) {q : List Form} {b : Binding} (hq : FormsOk ar q (fun x => b.has x = true)) (hsimple : FormsSimple q)
    (hord : Ordered q (fun x => b.has x = true)) (htidy : FormsTidy q (fun x => b.has x = true)) (hb : PlainB b)
    {roots : List String} {w1 : W} {opt : List Value} (hopt : K.optimize q roots = .ok w1 opt)
    {n : Nat} {w' : W} {out : SolOut} (h : K.askAtoms n opt b = .ok w' out) :
    w1 = K.world ∧ w' = K.world ∧ ∃ bs, out = .rows bs ∧
      (∀ b' ∈ bs, (∀ x v, b'.get x = some v → Plain v) ∧ (∀ x v, b.get x = some v → b'.get x = some v) ∧
        (∀ x, b'.has x = true → b.has x = true ∨ x ∈ formBinds q) ∧ (∀ x ∈ roots, x ∈ formBinds q → b'.has x = true) ∧
        ∃ σ : Assignment, (∀ x, Plain (σ x)) ∧ (∀ x v, b'.get x = some v → σ x = v) ∧
          SatAll (program tables rs) q (fun x => b.has x = true) σ) ∧
      (∀ σ : Assignment, (∀ x, Plain (σ x)) → (∀ x v, b.get x = some v → σ x = v) →
        SatAll (program tables rs) q (fun x => b.has x = true) σ → ∃ b' ∈ bs, ∀ x v, b'.get x = some v → σ x = v) ∧
      bs.Pairwise fun b1 b2 => ¬ ∀ x, b1.get x = b2.get x := by
  obtain ⟨e1, q1, q2, ha, hi, rfl⟩ := K.optimize_steps hcore hs hsimple hopt
  obtain ⟨hord1, k1⟩ := ha.keeps (P := program tables rs) (ar := ar) (early_ok _) hord htidy
  have k2 := hi.keeps (program tables rs) ar hord1 k1.tidy
  obtain ⟨e2, bs, e3, hsound, hcomplete, hdup⟩ := C71_first_order K hrr hcore (k2.ok (k1.ok hq)) hb h
  have hbinds : ∀ x, x ∈ formBinds q1 ↔ x ∈ formBinds q := fun x => (ha.binds x).symm
  refine ⟨e1, e2, bs, e3, ?_, ?_, hdup⟩
  · intro b' hb'
    obtain ⟨a1, a2, a3, a4⟩ := hsound b' hb'
    refine ⟨a1, a2, fun x hx => ((a3 x).1 hx).imp_right fun h => (hbinds x).1 (k2.binds x h), ?_, ?_⟩
    · intro x hr hx
      rw [a3]
      exact k2.roots x hr ((hbinds x).2 hx)
    · have hp := fill_plain (b := b') a1
      obtain ⟨τ, t1, t2, t3⟩ := k2.back (fill b') hp (a4 (fill b') hp (fill_agrees b'))
      refine ⟨τ, t1, ?_, (k1.sat τ t1).2 t3⟩
      intro x v hv
      have : b.has x = true ∨ x ∈ formBinds q2 := (a3 x).1 ((Dict.has_iff _ _).2 ⟨v, hv⟩)
      rw [t2 x (this.imp_right .inl)]
      exact fill_agrees b' x v hv
  · intro σ hp hσ hS
    exact hcomplete σ hp hσ (k2.to σ hp ((k1.sat σ hp).1 hS))

/-- **C84** (answers) If the query and the optimised query both return, they have the same answers, as far as the root variables and the
variables that were bound already are concerned. -/
theorem C84_optimize_answers (K : KnowledgeBase W ar tables rs) (hrr : HeadsBound rs) (hcore : ∀ p ∈ coreNames, NotDefined K.others K.world p)
    (hs : K.SmallSizes) {q : List Form} {b : Binding} (hq : FormsOk ar q (fun x => b.has x = true)) (hsimple : FormsSimple q)
    (hord : Ordered q (fun x => b.has x = true)) (htidy : FormsTidy q (fun x => b.has x = true)) (hb : PlainB b)
    {roots : List String} {w1 : W} {opt : List Value} (hopt : K.optimize q roots = .ok w1 opt)
    {n n' : Nat} {w2 w3 : W} {bs bs' : List Binding} (h : K.askForms n q b = .ok w2 (.rows bs)) (h' : K.askAtoms n' opt b = .ok w3 (.rows bs')) :
    (∀ b1 ∈ bs, ∃ b2 ∈ bs', SameOn roots b b1 b2) ∧ ∀ b2 ∈ bs', ∃ b1 ∈ bs, SameOn roots b b1 b2 := by
  obtain ⟨_, _, _, e, s2, c2, _⟩ := C84_optimize_meaning K hrr hcore hs hq hsimple hord htidy hb hopt h'
  cases e
  obtain ⟨_, _, e, s1, c1, _⟩ := C71_first_order K hrr hcore hq hb h
  cases e
  have key : ∀ b1 ∈ bs, ∀ b2 ∈ bs', ∀ σ : Assignment, Agrees σ b1 → Agrees σ b2 → SameOn roots b b1 b2 := by
    intro b1 hb1 b2 hb2 σ a1 a2 x hx
    obtain ⟨_, p2, p3, _⟩ := s1 b1 hb1
    obtain ⟨_, r2, r3, r4, _⟩ := s2 b2 hb2
    refine get_eq_of_has a1 a2 ?_
    rw [p3]
    refine ⟨?_, r3 x⟩
    have hb2' : b.has x = true → b2.has x = true := fun h => by
      obtain ⟨v, hv⟩ := (Dict.has_iff _ _).1 h
      exact (Dict.has_iff _ _).2 ⟨v, r2 x v hv⟩
    rintro (h | h)
    · exact hb2' h
    · exact hx.elim (fun hx => r4 x hx h) hb2'
  refine ⟨?_, ?_⟩
  · intro b1 hb1
    obtain ⟨a1, a2, a3, a4⟩ := s1 b1 hb1
    have hp := fill_plain (b := b1) a1
    have hS := a4 (fill b1) hp (fill_agrees b1)
    obtain ⟨b2, hb2, h2⟩ := c2 (fill b1) hp (fun x v hv => fill_agrees b1 x v (a2 x v hv)) hS
    exact ⟨b2, hb2, key b1 hb1 b2 hb2 _ (fill_agrees b1) h2⟩
  · intro b2 hb2
    obtain ⟨a1, a2, a3, a4, σ, t1, t2, t3⟩ := s2 b2 hb2
    obtain ⟨b1, hb1, h1⟩ := c1 σ t1 (fun x v hv => t2 x v (a2 x v hv)) t3
    exact ⟨b1, hb1, key b1 hb1 b2 hb2 _ h1 t2⟩

/-- The relations that state how many rows they have, also say for each argument how many different values it has, and that is not 0. -/
def KnowledgeBase.ArgumentSizes (K : KnowledgeBase W ar tables rs) : Prop :=
  ∀ m ∈ K.others, ∀ p r, m.relations K.world p = some r → r.relationSize = none ∨
    (ar p = some r.argumentSizes.length ∧ some 0 ∉ r.argumentSizes)

theorem Form.Ok.inside {f : Form} {B : String → Prop} (h : f.Ok ar B) (hs : f.Simple) {v : Value} (hv : v ∈ elements f.toValue) (ha : IsAtoms v) :
    ∃ q B', v = .list (formValues q) ∧ FormsOk ar q B' ∧ FormsSimple q := by
  have hno : ∀ {u : Value}, Verif.Simple u → ¬ IsAtoms u := by
    rintro u hu ⟨ts, xs, rfl⟩; exact hu
  have hstr : ∀ {t : String}, ¬ IsAtoms (.str t) := by rintro t ⟨ts, xs, h⟩; cases h
  have hvar : ∀ {t : String}, ¬ IsAtoms (.var t) := by rintro t ⟨ts, xs, h⟩; cases h
  cases f <;> simp only [Form.toValue, elements, List.mem_cons, List.not_mem_nil, or_false] at hv <;> rw [Form.Ok] at h <;> rw [Form.Simple] at hs
  case atom p args =>
    rcases hv with rfl | hv
    · exact absurd ha hstr
    · exact absurd ha (hno (hs.2 v hv))
  case neg q =>
    rcases hv with rfl | rfl
    · exact absurd ha hstr
    · exact ⟨q, B, rfl, h, hs⟩
  case thereIsNo q =>
    rcases hv with rfl | rfl
    · exact absurd ha hstr
    · exact ⟨q, B, rfl, h, hs⟩
  case thereIs q =>
    rcases hv with rfl | rfl
    · exact absurd ha hstr
    · exact ⟨q, B, rfl, h, hs⟩
  case exactly q n =>
    rcases hv with rfl | rfl | rfl
    · exact absurd ha hstr
    · exact ⟨q, B, rfl, h.1, hs.1⟩
    · exact absurd ha (hno hs.2)
  case moreThan q n =>
    rcases hv with rfl | rfl | rfl
    · exact absurd ha hstr
    · exact ⟨q, B, rfl, h.1, hs.1⟩
    · exact absurd ha (hno hs.2)
  case fewerThan q n =>
    rcases hv with rfl | rfl | rfl
    · exact absurd ha hstr
    · exact ⟨q, B, rfl, h.1, hs.1⟩
    · exact absurd ha (hno hs.2)
  case all x r q =>
    rcases hv with rfl | rfl | rfl | rfl
    · exact absurd ha hstr
    · exact absurd ha hvar
    · exact ⟨r, B, rfl, h.2.2.1, hs.1⟩
    · exact ⟨q, _, rfl, h.2.2.2, hs.2⟩
  case count x q =>
    rcases hv with rfl | rfl | rfl
    · exact absurd ha hstr
    · exact absurd ha hvar
    · exact ⟨q, B, rfl, h.2, hs⟩
  case either qs =>
    rcases hv with rfl | rfl
    · exact absurd ha hstr
    · exact absurd (isAtomList_iff.2 ha) (by rw [not_atomList_alt]; simp)
  case equals a c =>
    rcases hv with rfl | rfl | rfl
    · exact absurd ha hstr
    · exact absurd ha (hno hs.1)
    · exact absurd ha (hno hs.2)
  case greater a c =>
    rcases hv with rfl | rfl | rfl
    · exact absurd ha hstr
    · exact absurd ha (hno hs.1)
    · exact absurd ha (hno hs.2)
  case less a c =>
    rcases hv with rfl | rfl | rfl
    · exact absurd ha hstr
    · exact absurd ha (hno hs.1)
    · exact absurd ha (hno hs.2)
  case assign x v =>
    rcases hv with rfl | rfl | rfl
    · exact absurd ha hstr
    · exact absurd ha hvar
    · exact absurd ha (hno hs)
  case times a c x =>
    rcases hv with rfl | rfl | rfl | rfl
    · exact absurd ha hstr
    · exact absurd ha (hno hs.1)
    · exact absurd ha (hno hs.2)
    · exact absurd ha hvar

theorem formsOk_mem {q : List Form} {B : String → Prop} (h : FormsOk ar q B) {f : Form} (hf : f ∈ q) : ∃ B', f.Ok ar B' := by
  induction q generalizing B with
  | nil => cases hf
  | cons g gs ih =>
    rw [FormsOk] at h
    rcases List.mem_cons.1 hf with rfl | hf
    · exact ⟨B, h.1⟩
    · exact ih h.2 hf

theorem sorted_forms {a : Value} {xs : List Value} (h : Sorted a xs) : ∀ {q : List Form} {B : String → Prop}, xs = formValues q → FormsOk ar q B →
    FormsSimple q → ∃ (f : Form) (B' : String → Prop), a = f.toValue ∧ f.Ok ar B' := by
  induction h with
  | top ha =>
    intro q B e h1 h2
    subst e
    rw [formValues_eq] at ha
    obtain ⟨f, hf, rfl⟩ := List.mem_map.1 ha
    obtain ⟨B', h⟩ := formsOk_mem h1 hf
    exact ⟨f, B', rfl, h⟩
  | inside hb hv hat _ ih =>
    intro q B e h1 h2
    subst e
    rw [formValues_eq] at hb
    obtain ⟨f, hf, rfl⟩ := List.mem_map.1 hb
    obtain ⟨B1, h⟩ := formsOk_mem h1 hf
    obtain ⟨q', B', rfl, h3, h4⟩ := h.inside (formsSimple_iff.1 h2 f hf) hv hat
    exact ih rfl h3 h4

/-- The cost of a form can be computed. -/
theorem KnowledgeBase.form_costs (K : KnowledgeBase W ar tables rs) (hcore : ∀ p ∈ coreNames, NotDefined K.others K.world p)
    (hdis : NotDefined K.others K.world "$disjunction") (hsz : K.ArgumentSizes) {f : Form} {B' : String → Prop} (hok : f.Ok ar B') (bound : List String) :
    ∃ c, atomCost (findRelations (modelOf K.others) K.world) bound f.toValue = .ok c := by
  have key : ∀ (p : String) (args : List Value), (∀ r ∈ findRelations (modelOf K.others) K.world p,
      r.relationSize = none ∨ (r.argumentSizes.length = args.length ∧ some 0 ∉ r.argumentSizes)) →
      ∃ c, atomCost (findRelations (modelOf K.others) K.world) bound (.tuple (.str p :: args)) = .ok c :=
    fun p args h => atomCost_total (mods := modelOf K.others) (q := [(p, args)]) (a := (p, args))
      (by intro a ha; rw [List.mem_singleton] at ha; subst ha; exact h) (by simp) bound
  have hcoreSize : ∀ p ∈ coreNames, ∀ args : List Value, ∀ r ∈ findRelations (modelOf K.others) K.world p,
      r.relationSize = none ∨ (r.argumentSizes.length = args.length ∧ some 0 ∉ r.argumentSizes) := by
    intro p hp args r hr
    obtain ⟨g, hg⟩ := core_defined (W := W) hp
    rw [findRelations_core (hcore p hp) hg, List.mem_singleton] at hr
    subst hr
    exact .inl rfl
  cases hf : f.isFact with
  | false =>
    obtain ⟨args, e⟩ := toValue_pred f
    rw [e]
    apply key
    cases he : f.isEither with
    | false => exact hcoreSize _ (pred_core f hf he) args
    | true =>
      have hp : f.pred = "$disjunction" := by cases f <;> simp [Form.isEither] at he; rfl
      rw [hp]
      intro r hr
      rcases (findRelations_cons ..).1 hr with h1 | h1
      · exact .inl (core_unsized h1)
      · obtain ⟨m, hm, e⟩ := List.mem_filterMap.1 h1
        rw [hdis m hm] at e; cases e
  | true =>
    cases f <;> simp only [Form.isFact, Bool.false_eq_true] at hf
    case equals a c => exact key "equals" [a, c] (hcoreSize _ (by simp [coreNames]) _)
    case atom p args =>
      rw [Form.Ok] at hok
      refine key p args fun r hr => ?_
      rcases (findRelations_cons ..).1 hr with h1 | h1
      · exact .inl (core_unsized h1)
      · obtain ⟨m, hm, e⟩ := List.mem_filterMap.1 h1
        refine (hsz m hm p r e).imp_right fun h => ⟨?_, h.2⟩
        have := h.1
        rw [hok.1] at this
        exact (Option.some.inj this).symm

/-- **C84** (returning) The optimiser does not raise on such a query, when the numbers of values of the arguments are stated and no module defines
`$disjunction`. -/
theorem C84_optimize_returns (K : KnowledgeBase W ar tables rs) (hcore : ∀ p ∈ coreNames, NotDefined K.others K.world p)
    (hdis : NotDefined K.others K.world "$disjunction") (hsz : K.ArgumentSizes)
    {q : List Form} {B : String → Prop} (hq : FormsOk ar q B) (hsimple : FormsSimple q) (roots : List String) :
    ∃ opt, K.optimize q roots = .ok K.world opt := by
  rw [KnowledgeBase.optimize, Verif.optimize, frontSort_forms hsimple]
  have hl : (M.lift (.ok (formValues q)) : M W _) K.world = .ok K.world (formValues q) := rfl
  rw [M.bind_ok hl]
  cases h : sortComposition (modelOf K.others) (formValues q) K.world with
  | ok w' s2 =>
    obtain ⟨rfl, _⟩ := C46_greedy h
    rw [M.bind_ok h]
    exact ⟨_, rfl⟩
  | oof => exact absurd h (C46_terminates _ _ _)
  | err w' e =>
    obtain ⟨a, bound, ha, hc⟩ := C46_raises h
    obtain ⟨f, B', rfl, hok⟩ := sorted_forms ha rfl hq hsimple
    obtain ⟨c, hc'⟩ := K.form_costs hcore hdis hsz hok bound
    rw [hc'] at hc
    cases hc

end

theorem ordered_of_index {q : List Form} {B : String → Prop} (h : ∀ i : Fin q.length, (q[i]).isFact = false → ∀ x ∈ (q[i]).vars,
    (x ∈ formVars (q.take i ++ q.drop (i + 1)) → B x ∨ x ∈ formBinds (q.take i) ∨ (x ∈ (q[i]).binds ∧ x ∉ formBinds (q.drop (i + 1)))) ∧
    ((q[i]).isEither = true → x ∈ formBinds (q.take i ++ q.drop (i + 1)) → B x)) : Ordered q B := by
  intro l1 f l2 e
  subst e
  have := h ⟨l1.length, by simp⟩
  simpa using this

namespace Ex

/-- Parents, and who is rich or poor. -/
def town : Dict (List (List Value)) :=
  [("parent", [[.str "ann", .str "bob"], [.str "bob", .str "cas"], [.str "cas", .str "dan"], [.str "ann", .str "eve"]]),
   ("rich", [[.str "ann"], [.str "cas"]]), ("poor", [[.str "bob"]])]

/-- Tables that state their sizes. -/
def townModule : Module InfState where
  relations := fun _ p => (town.get p).map fun rows => { tableRelation InfState p rows with
    relationSize := if p = "parent" then some 100 else some 10
    argumentSizes := if p = "parent" then [some 50, some 50] else [some 10] }

def townAr : String → Option Nat := fun p => if p = "parent" then some 2 else if p = "rich" then some 1 else if p = "poor" then some 1 else none

theorem town_pred {p : String} {rows : List (List Value)} (h : town.get p = some rows) : p = "parent" ∨ p = "rich" ∨ p = "poor" := by
  by_cases e1 : "parent" = p
  · exact .inl e1.symm
  · by_cases e2 : "rich" = p
    · exact .inr (.inl e2.symm)
    · by_cases e3 : "poor" = p
      · exact .inr (.inr e3.symm)
      · simp [town, Dict.get, e1, e2, e3] at h

theorem town_ok : ProgramOk InfState townAr [town] [] := by
  refine ⟨⟨by decide, by decide, ?_⟩, ?_, ?_, by simp⟩
  · intro p f h
    have hne : p ≠ "parent" ∧ p ≠ "rich" ∧ p ≠ "poor" := by
      refine ⟨?_, ?_, ?_⟩ <;> rintro rfl <;> simp [coreTable, Dict.get] at h
    simp [townAr, hne.1, hne.2.1, hne.2.2]
  · intro p k h
    refine .inl ⟨town, by simp, ?_⟩
    simp only [townAr] at h
    split at h
    · rename_i e; subst e; decide
    · split at h
      · rename_i e; subst e; decide
      · split at h
        · rename_i e; subst e; decide
        · cases h
  · intro p k h db hdb rows hrows row hrow
    simp only [List.mem_singleton] at hdb
    subst hdb
    rcases town_pred hrows with rfl | rfl | rfl
    · cases hrows
      cases h
      simp only [List.mem_cons, List.not_mem_nil, or_false] at hrow
      rcases hrow with rfl | rfl | rfl | rfl <;> simp [Plain, legal, Value.isVar]
    · cases hrows
      cases h
      simp only [List.mem_cons, List.not_mem_nil, or_false] at hrow
      rcases hrow with rfl | rfl <;> simp [Plain, legal, Value.isVar]
    · cases hrows
      cases h
      simp only [List.mem_cons, List.not_mem_nil, or_false] at hrow
      rcases hrow with rfl
      simp [Plain, legal, Value.isVar]

def townKB : KnowledgeBase InfState townAr [town] [] where
  lens := Lens.id InfState
  world := InfState.init
  before := [townModule]
  after := []
  dbs := [town]
  dbs' := []
  split := by simp
  facts := by
    refine ⟨?_, trivial⟩
    intro p k _
    cases h : town.get p with
    | none => simp [townModule, h]
    | some rows => exact ⟨_, by simp only [townModule, h]; rfl, fun _ _ => rfl⟩
  facts' := trivial
  ok := town_ok
  inserted := rfl

theorem town_modules {m : Module InfState} (hm : m ∈ townKB.others) : m = townModule ∨ m = inferenceModule townKB.lens := by
  simpa [KnowledgeBase.others, townKB] using hm

theorem town_core : ∀ p ∈ "$disjunction" :: coreNames, NotDefined townKB.others townKB.world p := by
  intro p hp m hm
  simp only [coreNames, List.mem_cons, List.not_mem_nil, or_false] at hp
  rcases town_modules hm with rfl | rfl <;>
    rcases hp with rfl | rfl | rfl | rfl | rfl | rfl | rfl | rfl | rfl | rfl | rfl | rfl | rfl | rfl <;> rfl

theorem town_relations {m : Module InfState} (hm : m ∈ townKB.others) {p : String} {r : Relation InfState}
    (h : m.relations townKB.world p = some r) : r.relationSize = none ∨ (r.relationSize = some 100 ∧ r.argumentSizes = [some 50, some 50] ∧ p = "parent") ∨
      (r.relationSize = some 10 ∧ r.argumentSizes = [some 10] ∧ (p = "rich" ∨ p = "poor")) := by
  rcases town_modules hm with rfl | rfl
  · right
    simp only [townModule] at h
    cases e : town.get p with
    | none => rw [e] at h; cases h
    | some rows =>
      rw [e] at h
      cases h
      rcases town_pred e with rfl | rfl | rfl <;> simp
  · left
    simp only [inferenceModule] at h
    cases e : (townKB.lens.get townKB.world).relations.get p with
    | none => rw [e] at h; cases h
    | some f => rw [e] at h; cases h; rfl

theorem town_sizes : townKB.SmallSizes ∧ townKB.ArgumentSizes := by
  refine ⟨fun m hm p r h s hs => ?_, fun m hm p r h => ?_⟩
  · rcases town_relations hm h with h1 | ⟨h1, _⟩ | ⟨h1, _⟩ <;> rw [h1] at hs <;> cases hs <;> decide
  · rcases town_relations hm h with h1 | ⟨_, h1, rfl⟩ | ⟨_, h1, rfl | rfl⟩
    · exact .inl h1
    all_goals right; rw [h1]; simp [townAr]

/-- Who has a child without children, is rich, and has how many children, if there is a poor person with a child? -/
def townQuery : List Form :=
  [.atom "parent" [.var "X", .var "Y"], .neg [.atom "parent" [.var "Y", .var "Z"]], .atom "rich" [.var "X"],
   .count "N" [.atom "parent" [.var "X", .var "A"]], .greater (.var "N") (.num 0), .atom "poor" [.var "U"], .atom "parent" [.var "U", .var "V"]]

theorem townQuery_ok : FormsOk townAr townQuery (fun x => Dict.has ([] : Binding) x = true) ∧ FormsSimple townQuery ∧
    Ordered townQuery (fun x => Dict.has ([] : Binding) x = true) ∧ FormsTidy townQuery (fun x => Dict.has ([] : Binding) x = true) := by
  refine ⟨?_, ?_, ?_, ?_⟩
  · simp [townQuery, FormsOk, Form.Ok, townAr, ArgsOk, Value.isVar, Known.more, Form.binds, argVars, Dict.has, Dict.get, Plain, legal]
  · simp [townQuery, FormsSimple, Form.Simple, Simple]
  · apply ordered_of_index; decide +kernel
  · simp only [townQuery, FormsTidy, Form.Tidy, true_and, and_true]
    refine ⟨?_, ?_⟩ <;>
    · apply ordered_of_index
      intro i
      match i with
      | ⟨0, _⟩ => intro h; cases h

/-- The cheap facts come first; what does not concern the roots is isolated. -/
theorem townQuery_optimized : townKB.optimize townQuery ["X", "N"] = .ok townKB.world
    (formValues [.atom "rich" [.var "X"],
      .thereIs [.atom "parent" [.var "X", .var "Y"], .thereIs [.neg [.atom "parent" [.var "Y", .var "Z"]]]],
      .thereIs [.atom "poor" [.var "U"], .thereIs [.atom "parent" [.var "U", .var "V"]]],
      .count "N" [.atom "parent" [.var "X", .var "A"]], .greater (.var "N") (.num 0)]) := by decide +kernel

example := C84_optimize_returns townKB (fun p hp => town_core p (by simp [hp])) (town_core _ (by simp)) town_sizes.2 townQuery_ok.1 townQuery_ok.2.1 ["X", "N"]

example := C84_optimize_meaning townKB (by simp [HeadsBound]) (fun p hp => town_core p (by simp [hp])) town_sizes.1 townQuery_ok.1 townQuery_ok.2.1
  townQuery_ok.2.2.1 townQuery_ok.2.2.2 (b := []) plainB_nil townQuery_optimized (n := 5) (w' := townKB.world)
  (out := .rows [[("X", .str "ann"), ("N", .num 2)], [("X", .str "cas"), ("N", .num 1)]]) (by decide +kernel)

example := C84_optimize_answers townKB (by simp [HeadsBound]) (fun p hp => town_core p (by simp [hp])) town_sizes.1 townQuery_ok.1 townQuery_ok.2.1
  townQuery_ok.2.2.1 townQuery_ok.2.2.2 (b := []) plainB_nil townQuery_optimized (n := 5) (n' := 5) (w2 := townKB.world) (w3 := townKB.world)
  (bs := [[("X", .str "cas"), ("Y", .str "dan"), ("N", .num 1), ("U", .str "bob"), ("V", .str "cas")],
    [("X", .str "ann"), ("Y", .str "eve"), ("N", .num 2), ("U", .str "bob"), ("V", .str "cas")]])
  (bs' := [[("X", .str "ann"), ("N", .num 2)], [("X", .str "cas"), ("N", .num 1)]]) (by decide +kernel) (by decide +kernel)

end Ex

/-- The answers for the root variables. -/
def rootAnswers (roots : List String) : Res InfState SolOut → List (List (Option Value))
  | .ok _ (.rows bs) => bs.map fun b => roots.map b.get
  | _ => []

/-- Witness that alternatives must not share variables with what binds them: alternatives have no relations, and so cost nothing and come first.
Then the first alternative that holds for anyone counts for everyone. Of the rich or poor who have a child, bob is lost. -/
theorem C84_alternatives_first :
    let q : List Form := [.atom "parent" [.var "X", .var "Y"], .either [[.atom "rich" [.var "X"]], [.atom "poor" [.var "X"]]]]
    rootAnswers ["X"] (Ex.townKB.askForms 5 q []) = [[some (.str "ann")], [some (.str "bob")], [some (.str "cas")], [some (.str "ann")]] ∧
      ∃ opt, Ex.townKB.optimize q ["X"] = .ok Ex.townKB.world opt ∧
        rootAnswers ["X"] (Ex.townKB.askAtoms 5 opt []) = [[some (.str "ann")], [some (.str "cas")]] := by
  refine ⟨by decide +kernel, formValues [.either [[.atom "rich" [.var "X"]], [.atom "poor" [.var "X"]]],
    .thereIs [.atom "parent" [.var "X", .var "Y"]]], ?_, ?_⟩
  · decide +kernel
  · decide +kernel

/-- Witness that a negation must come after what binds its variables: it is moved there, and then says something else. No one is rich if
anyone is poor, but there are rich who are not poor. -/
theorem C84_negation_first :
    let q : List Form := [.neg [.atom "poor" [.var "X"]], .atom "rich" [.var "X"]]
    rootAnswers ["X"] (Ex.townKB.askForms 5 q []) = [] ∧
      ∃ opt, Ex.townKB.optimize q ["X"] = .ok Ex.townKB.world opt ∧
        rootAnswers ["X"] (Ex.townKB.askAtoms 5 opt []) = [[some (.str "ann")], [some (.str "cas")]] := by
  refine ⟨by decide +kernel, formValues [.atom "rich" [.var "X"], .thereIs [.neg [.atom "poor" [.var "X"]]]], ?_, ?_⟩
  · decide +kernel
  · decide +kernel

end Verif
