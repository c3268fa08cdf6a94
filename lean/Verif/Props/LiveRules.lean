import Verif.LiveRules
import Verif.Refine
import Verif.Props.Teaching

/-!
# C106: rules that are learned while rules are tried
-/

namespace Verif

variable {W : Type}

/-! ## Specification -/

/-- The loop over the rules that gives up as soon as the rules of the predicate have changed (specification). -/
def steadyRules (get : W → InfState) (p : String) (rules : List Rule) (args : List Value) (solver : SolverApi W) (b : Binding) :
    List Rule → List (List Value) → M W (List (List Value))
  | [], acc => pure acc
  | r :: rs, acc => do
    let rows ← solveRule r args solver b
    let s ← M.gets get
    if s.rules.get p = some rules then steadyRules get p rules args solver b rs (acc ++ rows) else M.throw (.exception "the rules have changed")

/-- Trying the rules of a predicate, without adding any to it meanwhile (specification). -/
def handleRuleSteady (get : W → InfState) (_ : List Value) (ctx : Ctx W) : M W QOut := do
  let s ← M.gets get
  match s.rules.get ctx.predicate with
  | none => M.throw .keyError
  | some rules => do
    let rows ← steadyRules get ctx.predicate rules ctx.arguments ctx.solver ctx.binding rules []
    pure (.rows rows)

/-- The inference module in which no rules may be added to a predicate while its rules are tried (specification). -/
def inferenceModuleSteady (l : Lens W InfState) : Module W where
  relations := fun w p => ((l.get w).relations.get p).map fun f =>
    { predicate := p
      query := match f with
        | .learnRule => learnRule l
        | .handleRule => handleRuleSteady l.get }

/-! ## The loops -/

theorem steadyRules_ref {a a' : SolverApi W} (h : SolverApi.Ref a a') (get : W → InfState) (p : String) (rules : List Rule) (args : List Value) (b : Binding)
    (rs : List Rule) (acc : List (List Value)) : M.Ref (steadyRules get p rules args a b rs acc) (solveRules args a' b rs acc) := by
  induction rs generalizing acc with
  | nil => exact M.Ref.refl _
  | cons r rs ih =>
    refine M.Ref.bind (solveRule_ref h r args b) fun rows => ?_
    intro w w' out ho
    rw [M.bind_ok (M.gets_run _ w)] at ho
    split at ho
    · exact ih _ _ _ _ ho
    · cases ho

theorem steadyRules_live {a a' : SolverApi W} (h : SolverApi.Ref a a') {get : W → InfState} {p : String} {rules : List Rule} (args : List Value) (b : Binding)
    (k : Nat) {rs : List Rule} {i : Nat} {acc : List (List Value)} {w w' : W} {out : List (List Value)} (hw : (get w).rules.get p = some rules)
    (hd : rules.drop i = rs) (hr : steadyRules get p rules args a b rs acc w = .ok w' out) :
    liveRules get p args a' b (rs.length + 1 + k) i acc w = .ok w' out := by
  induction rs generalizing i acc w with
  | nil =>
    rw [show [].length + 1 + k = k + 1 by simp; omega]
    simp only [liveRules]
    rw [M.bind_ok (M.gets_run _ w), hw, Option.getD_some, List.getElem?_eq_none (List.drop_eq_nil_iff.1 hd)]
    exact hr
  | cons r rs ih =>
    rw [show (r :: rs).length + 1 + k = (rs.length + 1 + k) + 1 by simp; omega]
    have hi : rules[i]? = some r := by
      have := congrArg (·[0]?) hd
      simpa using this
    simp only [liveRules]
    rw [M.bind_ok (M.gets_run _ w), hw, Option.getD_some, hi]
    obtain ⟨w1, rows, h1, h2⟩ := M.bind_eq_ok.1 hr
    rw [M.bind_ok (M.gets_run _ w1)] at h2
    dsimp only
    rw [M.bind_ok (solveRule_ref h r args b _ _ _ h1)]
    split at h2
    · next hs =>
      refine ih hs ?_ h2
      rw [← List.tail_drop, hd]; rfl
    · cases h2

theorem steady_ref_simple (l : Lens W InfState) : (inferenceModuleSteady l).Ref (inferenceModule l) := by
  intro w p
  simp only [inferenceModuleSteady, inferenceModule]
  cases (l.get w).relations.get p with
  | none => trivial
  | some f =>
    refine ⟨rfl, rfl, rfl, rfl, fun db p' c args bd a a' ha => ?_, trivial⟩
    cases f with
    | learnRule => exact M.Ref.refl _
    | handleRule =>
      simp only [handleRule, handleRuleSteady]
      refine M.Ref.bind (M.Ref.refl _) fun s => ?_
      cases s.rules.get p' with
      | none => exact M.Ref.refl _
      | some rules => exact M.Ref.bind (steadyRules_ref ha _ _ _ _ _ _ _) fun _ => M.Ref.refl _

theorem steady_ref_live (k : Nat) (l : Lens W InfState) : (inferenceModuleSteady l).Ref (inferenceModuleLive k l) := by
  intro w p
  simp only [inferenceModuleSteady, inferenceModuleLive]
  cases (l.get w).relations.get p with
  | none => trivial
  | some f =>
    refine ⟨rfl, rfl, rfl, rfl, fun db p' c args bd a a' ha => ?_, trivial⟩
    cases f with
    | learnRule => exact M.Ref.refl _
    | handleRule =>
      intro w w' out ho
      simp only [handleRuleLive, handleRuleSteady] at ho ⊢
      rw [M.bind_ok (M.gets_run _ w)] at ho ⊢
      cases hr : (l.get w).rules.get p' with
      | none => rw [hr] at ho; exact ho
      | some rules =>
        rw [hr] at ho
        dsimp only at ho ⊢
        obtain ⟨w1, rows, h1, h2⟩ := M.bind_eq_ok.1 ho
        rw [M.bind_ok (show liveRules l.get p' args a' bd (rules.length + 1 + k) 0 [] w = .ok w1 rows from
          steadyRules_live ha args bd k (rs := rules) (i := 0) hr rfl h1)]
        exact h2

theorem mods_ref {before after : List (Module W)} {m m' : Module W} (hm : m.Ref m') (hb : ∀ m ∈ before, m.Forwards) (ha : ∀ m ∈ after, m.Forwards) :
    ModsRef (modelOf (before ++ m :: after)) (modelOf (before ++ m' :: after)) := by
  have hall : ∀ ms : List (Module W), (∀ m ∈ ms, m.Forwards) → ModsRef ms ms := by
    intro ms
    induction ms with
    | nil => intro _; trivial
    | cons m ms ih => exact fun h => ⟨(h m (by simp)).ref, ih fun m hm => h m (List.mem_cons_of_mem _ hm)⟩
  refine ⟨coreModule_forwards.ref, ?_⟩
  induction before with
  | nil => exact ⟨hm, hall _ ha⟩
  | cons x before ih => exact ⟨(hb x (by simp)).ref, ih fun m hm => hb m (List.mem_cons_of_mem _ hm)⟩

/-- **C106** As long as no rule is added to a predicate while its rules are being tried, it makes no difference that the loop reads the rules one by one:
what is then returned is returned by the loop of Python, and by the loop that reads the rules once. -/
theorem C106_steady {before after : List (Module W)} (hb : ∀ m ∈ before, m.Forwards) (ha : ∀ m ∈ after, m.Forwards) (l : Lens W InfState) (k n : Nat)
    {q : Value} {b : Binding} {w w' : W} {out : SolOut}
    (h : (solverAt (modelOf (before ++ inferenceModuleSteady l :: after)) n).solve q b w = .ok w' out) :
    (solverAt (modelOf (before ++ inferenceModuleLive k l :: after)) n).solve q b w = .ok w' out ∧
    (solverAt (modelOf (before ++ inferenceModule l :: after)) n).solve q b w = .ok w' out :=
  ⟨(solverAt_ref (mods_ref (steady_ref_live k l) hb ha) n).solve q b _ _ _ h, (solverAt_ref (mods_ref (steady_ref_simple l) hb ha) n).solve q b _ _ _ h⟩

/-! ## Programs -/

section
variable {mods mods2 : List (Module W)} {l : W → InfState} {w : W} {ar : String → Option Nat}

/-- The relation of the module with the loop of Python. -/
def liveRelation (k : Nat) (l : W → InfState) (p : String) : Relation W := { predicate := p, query := handleRuleLive k l }

/-- Relation by relation: the same, or both try the rules. -/
def Pairs (k : Nat) (l : W → InfState) (p : String) : List (Relation W) → List (Relation W) → Prop
  | [], [] => True
  | r :: rs, r' :: rs' => ((r' = r ∧ r ≠ ruleRelation l p) ∨ (r = ruleRelation l p ∧ r' = liveRelation k l p)) ∧ Pairs k l p rs rs'
  | _, _ => False

theorem Pairs.length {k : Nat} {p : String} {rs rs' : List (Relation W)} (h : Pairs k l p rs rs') : rs.length = rs'.length := by
  induction rs generalizing rs' with
  | nil => cases rs' with
    | nil => rfl
    | cons => exact h.elim
  | cons r rs ih => cases rs' with
    | nil => exact h.elim
    | cons r' rs' => simp [ih h.2]

theorem solveRule_same {p : String} {args hargs : List Value} {body : Query} {b : Binding} {api api2 : SolverApi W}
    (hsame : ∀ b, PlainB b → api2.solve (toQuery body) b w = api.solve (toQuery body) b w) (hb : PlainB b) (hargsOk : ArgsOk args) :
    solveRule { head := .str p :: hargs, body := toQuery body } args api2 b w = solveRule { head := .str p :: hargs, body := toQuery body } args api b w := by
  have hwb : ∀ vs, PlainB (b.without vs) := by
    intro vs x v hx
    rw [Dict.get_without] at hx
    split at hx
    · simp at hx
    · exact hb x v hx
  simp only [solveRule, List.tail_cons]
  cases hbh : bindHead b hargs args (b.without (Rule.variables { head := .str p :: hargs, body := toQuery body })) with
  | none => rfl
  | some rb =>
    obtain ⟨_, hrb, _⟩ := bindHead_sound hb hargsOk (hwb _) hbh
    dsimp only
    split
    · rfl
    · rw [M.bind_run, M.bind_run, hsame rb hrb]

theorem liveRules_same {P : Program} {p : String} {args : List Value} {b : Binding} {api api2 : SolverApi W} {rules : List Rule}
    (hw : (l w).rules.get p = some rules) (k : Nat) {rs : List Rule}
    (hrs : ∀ r ∈ rs, ∃ hargs body, r = { head := .str p :: hargs, body := toQuery body } ∧ hargs.length = args.length ∧ ArgsOk hargs ∧ P.rules p hargs body ∧
      (∀ b, PlainB b → Good P body b w (api.solve (toQuery body) b w)) ∧ ∀ b, PlainB b → api2.solve (toQuery body) b w = api.solve (toQuery body) b w)
    (hb : PlainB b) (hargsOk : ArgsOk args) {i : Nat} (hd : rules.drop i = rs) (acc : List (List Value)) :
    liveRules l p args api2 b (rs.length + 1 + k) i acc w = solveRules args api b rs acc w := by
  induction rs generalizing i acc with
  | nil =>
    rw [show [].length + 1 + k = k + 1 by simp; omega]
    simp only [liveRules]
    rw [M.bind_ok (M.gets_run _ w), hw, Option.getD_some, List.getElem?_eq_none (List.drop_eq_nil_iff.1 hd)]
    rfl
  | cons r rs ih =>
    rw [show (r :: rs).length + 1 + k = (rs.length + 1 + k) + 1 by simp; omega]
    have hi : rules[i]? = some r := by
      have := congrArg (·[0]?) hd
      simpa using this
    obtain ⟨hargs, body, rfl, h1, h2, h3, h4, h5⟩ := hrs r (by simp)
    simp only [liveRules, solveRules]
    rw [M.bind_ok (M.gets_run _ w), hw, Option.getD_some, hi]
    dsimp only
    rw [M.bind_run, M.bind_run, solveRule_same h5 hb hargsOk]
    rcases solveRule_good h3 h4 hb hargsOk h2 h1 with h6 | ⟨rows, h6, _⟩
    · rw [h6]
    · rw [h6]
      exact ih (fun r hr => hrs r (List.mem_cons_of_mem _ hr)) (by rw [← List.tail_drop, hd]; rfl) _

variable {k : Nat} (hwf : WellFormed mods l w ar) (hpairs : ∀ p n, ar p = some n → Pairs k l p (findRelations mods w p) (findRelations mods2 w p))
  {api api2 : SolverApi W} (hapi : ∀ q b, QueryOk ar q → PlainB b → Good (programOf mods l w) q b w (api.solve (toQuery q) b w))
  (hsame : ∀ q b, QueryOk ar q → PlainB b → api2.solve (toQuery q) b w = api.solve (toQuery q) b w)
include hwf hpairs hapi hsame

theorem single_same {p : String} {args : List Value} (hp : ar p = some args.length) (hargs : ArgsOk args) {b : Binding} (hb : PlainB b) :
    solveSingle api2 mods2 (toAtom (p, args)) b w = solveSingle api mods (toAtom (p, args)) b w := by
  have hnd : p ≠ "$disjunction" := by
    rintro rfl; rw [hwf.noDisj] at hp; simp at hp
  simp only [toAtom, solveSingle_tuple, solveSingle.go, hnd, if_false]
  have hrules : ruleRelation l p ∈ findRelations mods w p →
      (liveRelation k l p).query (dbValues args b) ⟨(liveRelation k l p).predicate, (liveRelation k l p).columns, args, b, api2⟩ w =
        (ruleRelation l p).query (dbValues args b) ⟨(ruleRelation l p).predicate, (ruleRelation l p).columns, args, b, api⟩ w ∧
      ((ruleRelation l p).query (dbValues args b) ⟨(ruleRelation l p).predicate, (ruleRelation l p).columns, args, b, api⟩ w = .oof ∨
        ∃ rows, (ruleRelation l p).query (dbValues args b) ⟨(ruleRelation l p).predicate, (ruleRelation l p).columns, args, b, api⟩ w = .ok w (.rows rows)) := by
    intro hr
    obtain ⟨rs, hrs⟩ := hwf.rulesSome p _ hp hr
    have hall : ∀ r ∈ rs, ∃ hargs body, r = { head := .str p :: hargs, body := toQuery body } ∧ hargs.length = args.length ∧ ArgsOk hargs ∧
        (programOf mods l w).rules p hargs body ∧ (∀ b, PlainB b → Good (programOf mods l w) body b w (api.solve (toQuery body) b w)) ∧
        ∀ b, PlainB b → api2.solve (toQuery body) b w = api.solve (toQuery body) b w := by
      intro r hr2
      obtain ⟨hargs'', body'', e, h1, h2, h3⟩ := hwf.rulesOk p _ hp rs hrs r hr2
      exact ⟨hargs'', body'', e, h1, h2, ⟨hr, rs, hrs, e ▸ hr2⟩, fun b hb => hapi body'' b h3 hb, fun b hb => hsame body'' b h3 hb⟩
    have h1 := liveRules_same (l := l) hrs k hall hb hargs (i := 0) rfl []
    have h2 := solveRules_good (w := w) (P := programOf mods l w) (p := p) (args := args) (b := b) (solver := api) (rs := rs)
      (fun r hr => by
        obtain ⟨x, y, a1, a2, a3, a4, a5, _⟩ := hall r hr
        exact ⟨x, y, a1, a2, a3, a4, a5⟩) hb hargs [] (by simp)
    simp only [liveRelation, ruleRelation, handleRule, handleRuleLive]
    rw [M.bind_ok (M.gets_run _ w), M.bind_ok (M.gets_run _ w), hrs]
    dsimp only
    rw [M.bind_run, M.bind_run, h1]
    rcases h2 with h2 | ⟨rows, h2, _⟩
    · rw [h2]; exact ⟨rfl, .inl rfl⟩
    · rw [h2]; exact ⟨rfl, .inr ⟨rows, rfl⟩⟩
  have hq : ∀ r r', r ∈ findRelations mods w p → ((r' = r ∧ r ≠ ruleRelation l p) ∨ (r = ruleRelation l p ∧ r' = liveRelation k l p)) →
      r'.query (dbValues args b) ⟨r'.predicate, r'.columns, args, b, api2⟩ w = r.query (dbValues args b) ⟨r.predicate, r.columns, args, b, api⟩ w ∧
      (r.query (dbValues args b) ⟨r.predicate, r.columns, args, b, api⟩ w = .oof ∨
        ∃ rows, r.query (dbValues args b) ⟨r.predicate, r.columns, args, b, api⟩ w = .ok w (.rows rows)) := by
    intro r r' hr hrr
    rcases hwf.kinds p _ hp r hr with ⟨rows, htl⟩ | hrule
    · rcases hrr with ⟨rfl, _⟩ | ⟨rfl, rfl⟩
      · exact ⟨by rw [htl, htl], .inr ⟨_, htl _ _⟩⟩
      · exact hrules hr
    · subst hrule
      rcases hrr with ⟨_, hne⟩ | ⟨_, rfl⟩
      · exact absurd rfl hne
      · exact hrules hr
  have hrels : ∀ (mult : Bool) (rs rs' : List (Relation W)) (acc : List (List Value)), (∀ r ∈ rs, r ∈ findRelations mods w p) → Pairs k l p rs rs' →
      queryRelations api2 mult args b (dbValues args b) rs' acc w = queryRelations api mult args b (dbValues args b) rs acc w := by
    intro mult rs
    induction rs with
    | nil => intro rs' acc _ h; cases rs' with
      | nil => rfl
      | cons => exact h.elim
    | cons r rs ih =>
      intro rs' acc hmem h
      cases rs' with
      | nil => exact h.elim
      | cons r' rs' =>
        obtain ⟨h1, h2⟩ := hq r r' (hmem r (by simp)) h.1
        simp only [queryRelations]
        rw [M.bind_run, M.bind_run, h1]
        rcases h2 with h2 | ⟨rows, h2⟩
        · rw [h2]
        · rw [h2]
          exact ih _ _ (fun r hr => hmem r (List.mem_cons_of_mem _ hr)) h.2
  have hdef := hwf.defined p _ hp
  have hpr := hpairs p _ hp
  suffices h : findRelationValues api2 mods2 p args b w = findRelationValues api mods p args b w by
    rw [M.bind_run, M.bind_run, h]
  simp only [findRelationValues]
  rw [M.bind_ok (M.gets_run _ w), M.bind_ok (M.gets_run _ w)]
  cases e : findRelations mods w p with
  | nil => exact absurd e hdef
  | cons r rs =>
    cases e2 : findRelations mods2 w p with
    | nil => rw [e, e2] at hpr; exact hpr.elim
    | cons r' rs' =>
      rw [e, e2] at hpr
      dsimp only
      have hlen : rs.length = rs'.length := Pairs.length hpr.2
      rw [hlen]
      exact hrels _ _ _ _ (fun r hr => by rw [e]; exact hr) hpr

theorem atoms_same {q : Query} (hq : QueryOk ar q) {b : Binding} (hb : PlainB b) :
    solveAtoms api2 mods2 (q.map toAtom) b w = solveAtoms api mods (q.map toAtom) b w := by
  induction q generalizing b with
  | nil => rfl
  | cons a q ih =>
    obtain ⟨p, args⟩ := a
    obtain ⟨hp, hargs⟩ := hq (p, args) (by simp)
    have h1 := single_same hwf hpairs hapi hsame hp hargs hb
    cases q with
    | nil => exact h1
    | cons a2 rest =>
      have hq' : QueryOk ar (a2 :: rest) := fun a ha => hq a (List.mem_cons_of_mem _ ha)
      simp only [List.map_cons, solveAtoms]
      rw [M.bind_run, M.bind_run, h1]
      rcases solveSingle_good hwf hapi hp hargs hb with h2 | ⟨bs, h2, hs, _⟩
      · rw [h2]
      · rw [h2]
        dsimp only
        have hcol : ∀ (bs acc : List Binding), (∀ b ∈ bs, PlainB b) →
            collect (solveAtoms api2 mods2 (toAtom a2 :: rest.map toAtom)) bs acc w = collect (solveAtoms api mods (toAtom a2 :: rest.map toAtom)) bs acc w := by
          intro bs
          induction bs with
          | nil => intro _ _; rfl
          | cons b1 bs ihb =>
            intro acc hp
            have e := ih hq' (hp b1 (by simp))
            simp only [List.map_cons] at e
            simp only [collect]
            rw [M.bind_run, M.bind_run, e]
            rcases solveAtoms_good hwf hapi hq' (hp b1 (by simp)) with h3 | ⟨rs, h3, _⟩
            · simp only [List.map_cons] at h3; rw [h3]
            · simp only [List.map_cons] at h3
              rw [h3]
              exact ihb _ fun b hb => hp b (List.mem_cons_of_mem _ hb)
        exact hcol bs [] fun b hb => (hs b hb).1

omit hapi hsame in
theorem solve_same (n : Nat) {q : Query} (hq : QueryOk ar q) {b : Binding} (hb : PlainB b) :
    (solverAt mods2 n).solve (toQuery q) b w = (solverAt mods n).solve (toQuery q) b w := by
  induction n generalizing q b with
  | zero => rfl
  | succ n ih => exact atoms_same hwf hpairs (fun q b hq hb => solve_good hwf n hq hb) (fun q b hq hb => ih hq hb) hq hb

end

theorem Pairs.same {k : Nat} {l : W → InfState} {p : String} {rs : List (Relation W)} (h : ∀ r ∈ rs, r ≠ ruleRelation l p) : Pairs k l p rs rs := by
  induction rs with
  | nil => trivial
  | cons r rs ih => exact ⟨.inl ⟨rfl, h r (by simp)⟩, ih fun r hr => h r (List.mem_cons_of_mem _ hr)⟩

theorem Pairs.append {k : Nat} {l : W → InfState} {p : String} {r1 r2 s1 s2 : List (Relation W)} (h1 : Pairs k l p r1 s1) (h2 : Pairs k l p r2 s2) :
    Pairs k l p (r1 ++ r2) (s1 ++ s2) := by
  induction r1 generalizing s1 with
  | nil => cases s1 with
    | nil => exact h2
    | cons => exact h1.elim
  | cons r r1 ih => cases s1 with
    | nil => exact h1.elim
    | cons s s1 => exact ⟨h1.1, ih h1.2⟩

/-- **C106** Questions to a program of tables and rules get the answers with the loop of Python that they get with the loop that reads the rules once, also
when the inference module has other rules, like intents that learn. -/
theorem C106_programs (l : Lens W InfState) (w : W) (ar : String → Option Nat) {before after : List (Module W)}
    {dbs dbs' : List (Dict (List (List Value)))} (hf : FactModules ar w before dbs) (hf' : FactModules ar w after dbs')
    (extra : List Rule) (rs : List HornRule) (hok : ProgramOk W ar (dbs ++ dbs') rs)
    (hextra : ∀ e ∈ extra, e.pred ≠ some "$disjunction" ∧ ∀ p k, ar p = some k → e.pred ≠ some p)
    (hins : insertAll (extra ++ rs.map HornRule.toRule) InfState.init = .ok (l.get w))
    {q : Query} (hq : QueryOk ar q) {b : Binding} (hb : PlainB b) (k n : Nat) :
    (solverAt (modelOf (before ++ inferenceModuleLive k l :: after)) n).solve (toQuery q) b w =
      (solverAt (modelOf (before ++ inferenceModule l :: after)) n).solve (toQuery q) b w := by
  have hh := holdsFor_inference l w ar hf hf' extra rs hok hextra hins
  refine solve_same (k := k) (hh.wellFormed hok) ?_ n hq hb
  intro p kk hp
  have htab : ∀ (ms : List (Module W)) dbs, FactModules ar w ms dbs → ∀ r ∈ findRelations ms w p, r ≠ ruleRelation l.get p := by
    rintro ms dbs hms r hr rfl
    obtain ⟨db, _, rows, _, htl⟩ := (hms.mem hp).1 _ hr
    exact rule_not_tableLike hh.noDisj htl
  have hcore : (coreModule W).relations w p = none := core_none hok hp w
  simp only [modelOf, ← List.cons_append]
  rw [findRelations, findRelations, List.filterMap_append, List.filterMap_append]
  refine Pairs.append ?_ ?_
  · simp only [List.filterMap_cons, hcore]
    exact Pairs.same (htab before dbs hf)
  · have : (inferenceModule l).relations w p = none ∧ (inferenceModuleLive k l).relations w p = none ∨
        (inferenceModule l).relations w p = some (ruleRelation l.get p) ∧ (inferenceModuleLive k l).relations w p = some (liveRelation k l.get p) := by
      simp only [inferenceModule, inferenceModuleLive]
      have hrel := (insertAll_rules hins p).2.2
      split at hrel
      · rw [hrel]; exact .inr ⟨rfl, rfl⟩
      · have hne : p ≠ "learn_rule" := by
          rintro rfl; rw [hok.notReserved.2.1] at hp; cases hp
        rw [hrel]; simp [InfState.init, Dict.get, hne.symm]
    rcases this with ⟨h1, h2⟩ | ⟨h1, h2⟩
    · simp only [List.filterMap_cons, h1, h2]
      exact Pairs.same (htab after dbs' hf')
    · simp only [List.filterMap_cons, h1, h2]
      exact ⟨.inr ⟨rfl, rfl⟩, Pairs.same (htab after dbs' hf')⟩

/-! ## Sessions -/

theorem likeInferenceLive (k : Nat) (li : Lens W InfState) : LikeInference (inferenceModuleLive k li) li := by
  refine ⟨fun w p h => by simp [inferenceModuleLive, h], fun w p h => by simp [inferenceModuleLive, h],
    fun w p h => ⟨handleRuleLive k li.get, by simp [inferenceModuleLive, h], ?_⟩⟩
  intro r hr db args b api w1 rows hs hr1
  simp only [handleRuleLive]
  rw [M.bind_ok (M.gets_run _ w), hr]
  dsimp only
  have h : liveRules li.get p args api b ([r].length + 1 + k) 0 [] w = .ok w1 rows := by
    rw [show [r].length + 1 + k = k + 1 + 1 by simp; omega]
    simp only [liveRules]
    rw [M.bind_ok (M.gets_run _ w), hr]
    dsimp only [Option.getD_some, List.getElem?_cons_zero]
    rw [M.bind_ok hs, M.bind_ok (M.gets_run _ w1), hr1]
    rfl
  rw [M.bind_ok h]
  rfl

theorem runTurns_nil (api : SolverApi W) (wg : Grammar WriteSem) (l : Lens W SimpleStore) (m : Nat) (w : W) : runTurns api wg l m [] w = .ok w [] := rfl

theorem runTurns_teach {api : SolverApi W} {wg : Grammar WriteSem} {l : Lens W SimpleStore} {m : Nat} {t : Teaching} (ts : List ClassTurn) {w w2 w3 : W}
    {o : SolOut} {v : Value} (h1 : api.solve t.meaning [] w = .ok w2 o) (h2 : generateOutput api wg l m w2 = .ok w3 v) :
    runTurns api wg l m (.teach t :: ts) w = (runTurns api wg l m ts >>= fun outs => pure (.reply v :: outs)) w3 := by
  simp only [runTurns]
  rw [M.bind_ok h1, M.bind_ok h2]

theorem bind_same {α β : Type} {x y : M W α} {f : α → M W β} {w : W} (h : x w = y w) : (x >>= f) w = (y >>= f) w := by
  rw [M.bind_run, M.bind_run, h]

theorem runTurns_ask {api api2 : SolverApi W} {wg : Grammar WriteSem} {l : Lens W SimpleStore} {m : Nat} {q : Query} {b : Binding} {ts : List ClassTurn} {w : W}
    (h1 : api2.solve (toQuery q) b w = api.solve (toQuery q) b w)
    (h2 : api.solve (toQuery q) b w = .oof ∨ ∃ bs, api.solve (toQuery q) b w = .ok w (.rows bs))
    (h3 : runTurns api2 wg l m ts w = runTurns api wg l m ts w) : runTurns api2 wg l m (.ask q b :: ts) w = runTurns api wg l m (.ask q b :: ts) w := by
  simp only [runTurns]
  rw [M.bind_run, M.bind_run, h1]
  rcases h2 with h2 | ⟨bs, h2⟩
  · rw [h2]
  · rw [h2]
    dsimp only
    rw [M.bind_run, M.bind_run, h3]

/-- **C106** Sessions of sentences that teach rules and of questions (C105) have with the loop of Python the same outcome: the same replies, answers and
stored rules, and they end precisely when the others do. -/
theorem C106_sessions {li : Lens W InfState} {l : Lens W SimpleStore} {before after : List (Module W)} {dbs dbs' : List (Dict (List (List Value)))}
    {wg : Grammar WriteSem} {rule : WRule} {text : Str} (hrule : RepliesWith wg "ok" rule) (hl : TextRule rule "ok" text) (k n m : Nat) (ts : List ClassTurn) :
    ∀ {rs : List HornRule} {w : W}, Teachable li l before after w → l.get w = SimpleStore.clear → (∀ r ∈ rs, ¬ Busy r.pred) →
    insertAll (learnIntent :: rs.map HornRule.toRule) InfState.init = .ok (li.get w) → SensibleTurns li before after dbs dbs' w rs ts →
    runTurns (solverAt (modelOf (before ++ inferenceModuleLive k li :: after)) (n + 3)) wg l (m + 1) ts w =
      runTurns (solverAt (modelOf (before ++ inferenceModule li :: after)) (n + 3)) wg l (m + 1) ts w := by
  induction ts with
  | nil => intro rs w T he hrs hins hts; exact (runTurns_nil ..).trans (runTurns_nil ..).symm
  | cons t ts ih =>
    intro rs w T he hrs hins hts
    have c := canLearn_inserted hrs hins
    cases t with
    | teach t =>
      obtain ⟨hok, hts'⟩ := hts
      obtain ⟨s1, w2, h1, h2, h3⟩ := teach_one (likeInference li) T c he hok hrule hl n m
      obtain ⟨s2, w3, h4, h5, h6⟩ := teach_one (likeInferenceLive k li) T c he hok hrule hl n m
      have e : s2 = s1 := by rw [h1] at h4; exact (Except.ok.inj h4).symm
      subst e
      have hclear : l.put SimpleStore.clear (li.put s2 w) = li.put s2 w := by rw [T.apart, ← he, l.put_get]
      have hins1 : insertAll (learnIntent :: (rs ++ [t.rule.filled t.given]).map HornRule.toRule) InfState.init = .ok (li.get (li.put s2 w)) := by
        rw [li.get_put, List.map_append, ← List.cons_append, insertAll_append hins]
        simp only [List.map_cons, List.map_nil, insertAll, h1]
      have h7 := ih (T.put s2) (by rw [← hclear, l.get_put]) (fun r hr => by
          rcases List.mem_append.1 hr with hr | hr
          · exact hrs r hr
          · rw [List.mem_singleton.1 hr]; exact hok.idle) hins1 (hts'.put s2)
      refine (runTurns_teach ts h5 h6).trans (Eq.trans ?_ (runTurns_teach ts h2 h3).symm)
      exact bind_same h7
    | ask q b =>
      obtain ⟨⟨ar, a1, a2, a3, a4, a5⟩, hts'⟩ := hts
      have a6 := a5 (li.get w)
      rw [li.put_get] at a6
      have hextra : ∀ e ∈ [learnIntent], e.pred ≠ some "$disjunction" ∧ ∀ p k, ar p = some k → e.pred ≠ some p := by
        intro e he
        rw [List.mem_singleton.1 he]
        refine ⟨by decide, fun p k hp e => ?_⟩
        have : p = "sentence_learn" := (Option.some.inj e).symm
        subst this; rw [a2] at hp; simp at hp
      have h0 := C106_programs li w ar a6.1 a6.2 [learnIntent] rs a1 hextra hins a3 a4 k (n + 3)
      refine runTurns_ask h0 ?_ (ih T he hrs hins hts')
      rcases solve_exact_others li w ar a6.1 a6.2 [learnIntent] rs a1 hextra
        (by intro e he; rw [List.mem_singleton.1 he]; exact learnIntent_bound) hins a3 a4 (n + 3) with h1 | ⟨bs, h1, _⟩
      · exact .inl h1
      · exact .inr ⟨bs, h1⟩

namespace Ex

theorem pupilTables_forwards : ∀ m ∈ pupilTables, m.Forwards := by
  intro m hm
  rw [List.mem_singleton.1 hm]
  exact tableModule_forwards family

theorem pupilBuffer_forwards : ∀ m ∈ pupilBuffer, m.Forwards := by
  intro m hm
  rw [List.mem_singleton.1 hm]
  intro w p r h
  simp only [outputBuffer, memoryModule, Option.map_eq_some_iff] at h
  obtain ⟨cs, -, rfl⟩ := h
  exact .self (fun _ _ _ _ _ _ _ _ => M.Ref.refl _) fun f h => by
    simp only [memoryRelation, Option.some.injEq] at h
    subst h
    exact fun _ _ _ _ _ _ _ _ => M.Ref.refl _

/-- The question to the pupil of C105, with the loop of Python. -/
example := C106_programs (Lens.fst InfState SimpleStore) pupil familyAr (before := pupilTables) (after := pupilBuffer)
  (pupil_facts pupil.1).1
  (pupil_facts pupil.1).2
  [learnIntent] ancestorRules (pupil_ok ⟨_, List.mem_cons_self, rfl⟩ fun r hr => school_rules r (List.mem_append_left _ hr))
  (by
    intro e he
    rw [List.mem_singleton.1 he]
    refine ⟨by decide, fun p k hp e => ?_⟩
    have : p = "sentence_learn" := (Option.some.inj e).symm
    subst this; simp [familyAr] at hp)
  pupil_inserted family_query_ok noBinding 0 7

/-- A rule is learned by the intent while no other rule is tried: `C106_steady` applies. -/
theorem teach_steady : ∃ w', (solverAt (modelOf (pupilTables ++ inferenceModuleSteady (Lens.fst InfState SimpleStore) :: pupilBuffer)) 4).solve
    tellReversed.meaning [] pupil = .ok w' (.rows [[("E", .str "cas")]]) :=
  ⟨((⟨pupil.1.relations, [("sentence_learn", [learnIntent]), ("ancestor", (ancestorRules ++ [reversed.filled [("E", .str "cas")]]).map HornRule.toRule)]⟩,
    [("output_type", [[("type", .str "ok")]])]) : Pupil), by decide +kernel⟩

example := C106_steady pupilTables_forwards pupilBuffer_forwards (Lens.fst InfState SimpleStore) 3 4 teach_steady.choose_spec

/-- The session of C105. -/
example := C106_sessions (pupil_reply (fun _ _ => 0) (fun _ => .ok (.str ""))) ((say_rules _ (fun _ => .ok (.str ""))).1 "ok" _) 2 5 0 pupilTurns pupil_teachable rfl
  pupil_free pupil_inserted pupil_sensible

/-- `p(X) :- learn_rule(p('b'), []).` -/
def selfTaught : InfState :=
  { relations := [("learn_rule", .learnRule), ("p", .handleRule)]
    rules := [("p", [⟨[.str "p", .var "X"], .list [.tuple [.str "learn_rule", .tuple [.str "p", .str "b"], .list []]]⟩])] }

/-- **C106** When a rule adds rules to its own predicate it does make a difference: Python goes on with the rule that was added, so it finds `p('b')` the
first time it is asked. The loop that reads the rules once (`handleRule` of this model, which is used in the other theorems) does not. -/
theorem C106_added : ∃ w', (solverAt (modelOf [inferenceModuleLive 1 (Lens.id InfState)]) 3).solve (.list [.tuple [.str "p", .var "W"]]) [] selfTaught =
      .ok w' (.rows [[("W", .str "b")]]) ∧
    (solverAt (modelOf [inferenceModule (Lens.id InfState)]) 3).solve (.list [.tuple [.str "p", .var "W"]]) [] selfTaught = .ok w' (.rows []) :=
  ⟨⟨selfTaught.relations, [("p", (selfTaught.rules.get "p").getD [] ++ [⟨[.str "p", .str "b"], .list []⟩])]⟩, by decide +kernel⟩

end Ex

end Verif
