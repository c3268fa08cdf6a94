import Verif.Stats
import Verif.LoggingLemmas

/-!
# The same run in a larger world

`π` forgets a part of the world. A run in the larger world simulates one in the smaller world if it has the same outcome, up to what is forgotten.
Here are no definitions that model code.
-/

namespace Verif

variable {V W α β : Type} {π : V → W}

/-- The same outcome, up to what `π` forgets. -/
def M.Sim (π : V → W) (x : M V α) (y : M W α) : Prop := ∀ v, (x v).mapWorld π = y (π v)

theorem M.Sim.pure (a : α) : M.Sim π (Pure.pure a) (Pure.pure a) := fun _ => rfl
theorem M.Sim.throw (e : Err) : M.Sim π (M.throw e : M V α) (M.throw e) := fun _ => rfl
theorem M.Sim.oof : M.Sim π (M.oof : M V α) M.oof := fun _ => rfl

theorem M.Sim.lift (x : Except Err α) : M.Sim π (M.lift x) (M.lift x) := by
  cases x
  · exact M.Sim.throw _
  · exact M.Sim.pure _

theorem M.Sim.bind {x : M V α} {y : M W α} {f : α → M V β} {g : α → M W β} (h : M.Sim π x y) (hf : ∀ a, M.Sim π (f a) (g a)) :
    M.Sim π (x >>= f) (y >>= g) := by
  intro v
  rw [M.bind_run, M.bind_run, ← h v]
  cases x v with
  | ok v' a => exact hf a v'
  | err v' e => rfl
  | oof => rfl

theorem M.Sim.gets {f : V → α} {g : W → α} (h : ∀ v, f v = g (π v)) : M.Sim π (M.gets f) (M.gets g) := fun v => by
  simp [Res.mapWorld, h]

theorem M.Sim.modify {f : V → V} {g : W → W} (h : ∀ v, π (f v) = g (π v)) : M.Sim π (M.modify f) (M.modify g) := fun v => by
  simp [Res.mapWorld, h]

/-- Only a part is changed that is forgotten. -/
theorem M.Sim.forget {f : V → V} (h : ∀ v, π (f v) = π v) : M.Sim π (M.modify f) (Pure.pure ()) := fun v => by
  simp [Res.mapWorld, h]

/-- Simulation of solvers. -/
structure SolverApi.Sim (π : V → W) (a : SolverApi V) (b : SolverApi W) : Prop where
  solve : ∀ v bd, M.Sim π (a.solve v bd) (b.solve v bd)
  writeAtom : ∀ v, M.Sim π (a.writeAtom v) (b.writeAtom v)

/-- Simulation of relations: they have the same names and columns, and when the solvers simulate each other the functions do. -/
structure Relation.Sim (π : V → W) (r : Relation V) (r' : Relation W) : Prop where
  predicate : r.predicate = r'.predicate
  columns : r.columns = r'.columns
  query : ∀ db p c args bd a a', SolverApi.Sim π a a' → M.Sim π (r.query db ⟨p, c, args, bd, a⟩) (r'.query db ⟨p, c, args, bd, a'⟩)
  write : match r.write, r'.write with
    | none, none => True
    | some f, some f' => ∀ db p c args bd a a', SolverApi.Sim π a a' → M.Sim π (f db ⟨p, c, args, bd, a⟩) (f' db ⟨p, c, args, bd, a'⟩)
    | _, _ => False

/-- Relation by relation. -/
def RelsSim (π : V → W) : List (Relation V) → List (Relation W) → Prop
  | [], [] => True
  | r :: rs, r' :: rs' => r.Sim π r' ∧ RelsSim π rs rs'
  | _, _ => False

/-- Simulation of modules. -/
def Module.Sim (π : V → W) (m : Module V) (m' : Module W) : Prop := ∀ v p, match m.relations v p, m'.relations (π v) p with
  | none, none => True
  | some r, some r' => r.Sim π r'
  | _, _ => False

/-- Module by module. -/
def ModsSim (π : V → W) : List (Module V) → List (Module W) → Prop
  | [], [] => True
  | m :: ms, m' :: ms' => m.Sim π m' ∧ ModsSim π ms ms'
  | _, _ => False

theorem findRelations_sim {ms : List (Module V)} {ms' : List (Module W)} (h : ModsSim π ms ms') (v : V) (p : String) :
    RelsSim π (findRelations ms v p) (findRelations ms' (π v) p) := by
  induction ms generalizing ms' with
  | nil => cases ms' with
    | nil => trivial
    | cons => exact h.elim
  | cons m ms ih => cases ms' with
    | nil => exact h.elim
    | cons m' ms' =>
      have h1 := h.1 v p
      have h2 := ih h.2
      simp only [findRelations, List.filterMap_cons] at h2 ⊢
      split at h1
      · rename_i e e'; rw [e, e']; exact h2
      · rename_i e e'; rw [e, e']; exact ⟨h1, h2⟩
      · exact h1.elim

theorem RelsSim.length {rs : List (Relation V)} {rs' : List (Relation W)} (h : RelsSim π rs rs') : rs.length = rs'.length := by
  induction rs generalizing rs' with
  | nil => cases rs' with
    | nil => rfl
    | cons => exact h.elim
  | cons r rs ih => cases rs' with
    | nil => exact h.elim
    | cons r' rs' => simp [ih h.2]

section
variable {a : SolverApi V} {a' : SolverApi W} {ms : List (Module V)} {ms' : List (Module W)}

theorem queryRelations_sim (h : SolverApi.Sim π a a') (mult : Bool) (args : List Value) (b : Binding)
    (db : List Value) {rs : List (Relation V)} {rs' : List (Relation W)} (hr : RelsSim π rs rs') (acc : List (List Value)) :
    M.Sim π (queryRelations a mult args b db rs acc) (queryRelations a' mult args b db rs' acc) := by
  induction rs generalizing rs' acc with
  | nil => cases rs' with
    | nil => exact M.Sim.pure _
    | cons => exact hr.elim
  | cons r rs ih => cases rs' with
    | nil => exact hr.elim
    | cons r' rs' =>
      obtain ⟨h1, h2⟩ := hr
      simp only [queryRelations, h1.predicate, h1.columns]
      refine M.Sim.bind (h1.query _ _ _ _ _ _ _ h) fun out => ?_
      cases out with
      | iter s n => dsimp only; split; exact M.Sim.throw _; exact M.Sim.pure _
      | rows rows => exact ih h2 _

theorem findRelationValues_sim (h : SolverApi.Sim π a a') (hm : ModsSim π ms ms') (p : String)
    (args : List Value) (b : Binding) : M.Sim π (findRelationValues a ms p args b) (findRelationValues a' ms' p args b) := by
  intro v
  have hf := findRelations_sim hm v p
  simp only [findRelationValues]
  rw [M.bind_ok (M.gets_run _ v), M.bind_ok (M.gets_run _ (π v))]
  cases e : findRelations ms v p with
  | nil =>
    rw [e] at hf
    cases e' : findRelations ms' (π v) p with
    | nil => exact M.Sim.throw _ v
    | cons => rw [e'] at hf; exact hf.elim
  | cons r rs =>
    rw [e] at hf
    cases e' : findRelations ms' (π v) p with
    | nil => rw [e'] at hf; exact hf.elim
    | cons r' rs' =>
      rw [e'] at hf
      simp only [hf.2.length]
      exact queryRelations_sim h _ _ _ _ hf _ v

theorem solveDisjuncts_sim (h : SolverApi.Sim π a a') (b : Binding) (ds : List Value) :
    M.Sim π (solveDisjuncts a b ds) (solveDisjuncts a' b ds) := by
  induction ds with
  | nil => exact M.Sim.pure _
  | cons d ds ih =>
    simp only [solveDisjuncts]
    refine M.Sim.bind (h.solve _ _) fun out => ?_
    split
    · exact M.Sim.pure _
    · exact ih

theorem resultsOf_sim (b : Binding) (args : List Value) (q : QOut) : M.Sim π (resultsOf b args q) (resultsOf b args q) := by
  match q with
  | .iter single n => exact M.Sim.pure _
  | .rows [] => exact M.Sim.pure _
  | .rows (r :: rs) =>
    simp only [resultsOf]
    split
    · exact M.Sim.throw _
    · exact M.Sim.lift _

theorem solveSingle_go_sim (h : SolverApi.Sim π a a') (hm : ModsSim π ms ms') (b : Binding) (p : String) (args : List Value) :
    M.Sim π (solveSingle.go a ms b p args) (solveSingle.go a' ms' b p args) := by
  simp only [solveSingle.go]
  split
  · split
    · exact solveDisjuncts_sim h _ _
    · exact solveDisjuncts_sim h _ _
    · exact M.Sim.throw _
    · exact M.Sim.throw _
  · exact M.Sim.bind (findRelationValues_sim h hm _ _ _) fun _ => resultsOf_sim _ _ _

theorem countCall_sim {st : Lens V Stats} (hst : ∀ s v, π (st.put s v) = π v) (log : Bool) (p : String) :
    M.Sim π (countCall st log p) (Pure.pure ()) := by
  cases log
  · exact M.Sim.pure _
  · exact M.Sim.forget fun v => hst _ v

/-- An atom is solved by the counting solver as by the other. -/
theorem solveSingleStats_sim {st : Lens V Stats} (hst : ∀ s v, π (st.put s v) = π v) (log : Bool) (h : SolverApi.Sim π a a')
    (hm : ModsSim π ms ms') (atom : Value) (b : Binding) : M.Sim π (solveSingleStats st log a ms atom b) (solveSingle a' ms' atom b) := by
  have hgo : ∀ p args, M.Sim π (countCall st log p >>= fun _ => solveSingle.go a ms b p args) (solveSingle.go a' ms' b p args) :=
    fun p args => M.Sim.bind (y := Pure.pure ()) (g := fun _ => solveSingle.go a' ms' b p args) (countCall_sim hst log p)
      fun _ => solveSingle_go_sim h hm b p args
  unfold solveSingleStats solveSingle
  split
  · exact hgo _ _
  · exact hgo _ _
  · exact M.Sim.throw _
  · exact M.Sim.throw _
  · rename_i h1 h2 h3 h4
    split
    · exact absurd rfl (h1 _ _)
    · exact absurd rfl (h2 _ _)
    · exact absurd rfl h3
    · exact absurd rfl h4
    · exact M.Sim.throw _

theorem collect_sim {f : Binding → M V SolOut} {g : Binding → M W SolOut} (h : ∀ b, M.Sim π (f b) (g b)) (bs acc : List Binding) :
    M.Sim π (collect f bs acc) (collect g bs acc) := by
  induction bs generalizing acc with
  | nil => exact M.Sim.pure _
  | cons b bs ih =>
    simp only [collect]
    refine M.Sim.bind (h b) fun out => ?_
    match out with
    | .rows rs => exact ih _
    | .iter _ 0 => exact ih _
    | .iter _ (_ + 1) => exact M.Sim.throw _

theorem solveAtomsStats_sim {st : Lens V Stats} (hst : ∀ s v, π (st.put s v) = π v) (log : Bool) (h : SolverApi.Sim π a a')
    (hm : ModsSim π ms ms') (as : List Value) (b : Binding) : M.Sim π (solveAtomsStats st log a ms as b) (solveAtoms a' ms' as b) := by
  induction as generalizing b with
  | nil => exact M.Sim.pure _
  | cons x rest ih =>
    cases rest with
    | nil => exact solveSingleStats_sim hst log h hm x b
    | cons a2 rest =>
      simp only [solveAtomsStats, solveAtoms]
      refine M.Sim.bind (solveSingleStats_sim hst log h hm x b) fun out => ?_
      match out with
      | .rows rs => exact collect_sim ih _ _
      | .iter _ 0 => exact M.Sim.pure _
      | .iter _ (_ + 1) => exact M.Sim.throw _

theorem writeRelations_sim (h : SolverApi.Sim π a a') (args : List Value) {rs : List (Relation V)} {rs' : List (Relation W)} (hr : RelsSim π rs rs') :
    M.Sim π (writeRelations a args rs) (writeRelations a' args rs') := by
  induction rs generalizing rs' with
  | nil => cases rs' with
    | nil => exact M.Sim.pure _
    | cons => exact hr.elim
  | cons r rs ih => cases rs' with
    | nil => exact hr.elim
    | cons r' rs' =>
      obtain ⟨h1, h2⟩ := hr
      simp only [writeRelations, h1.predicate, h1.columns]
      have hw := h1.write
      split at hw
      · rename_i e e'; rw [e, e']; exact ih h2
      · rename_i e e'; rw [e, e']; exact M.Sim.bind (hw _ _ _ _ _ _ _ h) fun _ => ih h2
      · exact hw.elim

theorem writeAtom_sim (h : SolverApi.Sim π a a') (hm : ModsSim π ms ms') (atom : Value) :
    M.Sim π (writeAtom a ms atom) (writeAtom a' ms' atom) := by
  have hgo : ∀ p args, M.Sim π (writeAtom.go a ms p args) (writeAtom.go a' ms' p args) := by
    intro p args v
    have hf := findRelations_sim hm v p
    simp only [writeAtom.go]
    rw [M.bind_ok (M.gets_run _ v), M.bind_ok (M.gets_run _ (π v))]
    cases e : findRelations ms v p with
    | nil =>
      rw [e] at hf
      cases e' : findRelations ms' (π v) p with
      | nil => exact M.Sim.throw _ v
      | cons => rw [e'] at hf; exact hf.elim
    | cons r rs =>
      rw [e] at hf
      cases e' : findRelations ms' (π v) p with
      | nil => rw [e'] at hf; exact hf.elim
      | cons r' rs' => rw [e'] at hf; exact writeRelations_sim h _ hf v
  unfold writeAtom
  split
  · exact hgo _ _
  · exact hgo _ _
  · exact M.Sim.throw _
  · exact M.Sim.throw _
  · exact M.Sim.throw _

/-- The counting solver has the outcomes of the other. -/
theorem solverStats_sim {st : Lens V Stats} (hst : ∀ s v, π (st.put s v) = π v) (log : Bool) (hm : ModsSim π ms ms') (n : Nat) :
    SolverApi.Sim π (solverStats st log ms n) (solverAt ms' n) := by
  induction n with
  | zero => exact ⟨fun _ _ => M.Sim.oof, fun _ => M.Sim.oof⟩
  | succ n ih =>
    constructor
    · intro v bd
      show M.Sim π (solveValueStats _ _ _ _ _ _) (solveValue _ _ _ _)
      unfold solveValueStats solveValue
      split
      · exact solveAtomsStats_sim hst log ih hm _ _
      · rename_i h1
        split
        · exact absurd rfl (h1 _)
        · exact M.Sim.throw _
    · intro v
      exact writeAtom_sim ih hm v

end

/-! ## The modules of the library -/

theorem nth_sim (xs : List Value) (i : Nat) : M.Sim π (nth xs i) (nth xs i) := by
  unfold nth; split
  · exact M.Sim.pure _
  · exact M.Sim.throw _

theorem iterSol_sim (x : Value) (o : SolOut) : M.Sim π (iterSol x o) (iterSol x o) := by
  match o with
  | .rows bs => exact M.Sim.pure _
  | .iter _ 0 => exact M.Sim.pure _
  | .iter _ (_ + 1) =>
    simp only [iterSol]
    split <;> exact M.Sim.throw _

/-- Close goals `M.Sim π x y` where `x` and `y` differ only in the solver and the world. -/
macro "sim_tac" h:term : tactic => `(tactic|
  repeat' (first
    | exact M.Sim.pure _
    | exact M.Sim.throw _
    | exact M.Sim.lift _
    | exact nth_sim _ _
    | exact iterSol_sim _ _
    | exact (SolverApi.Sim.solve $h _ _)
    | exact (SolverApi.Sim.writeAtom $h _)
    | refine M.Sim.bind ?_ ?_
    | split
    | intro _))

section
variable {a : SolverApi V} {a' : SolverApi W}

theorem allLoop_sim (h : SolverApi.Sim π a a') (p c args bd) (n : String) (body : Value) (es acc : List Value) :
    M.Sim π (allLoop ⟨p, c, args, bd, a⟩ n body es acc) (allLoop ⟨p, c, args, bd, a'⟩ n body es acc) := by
  induction es generalizing acc with
  | nil => exact M.Sim.pure _
  | cons e es ih =>
    simp only [allLoop]
    exact M.Sim.bind (h.solve _ _) fun r => ih _

theorem storeLoop_sim (h : SolverApi.Sim π a a') (p c args bd) (as : List Value) :
    M.Sim π (storeLoop ⟨p, c, args, bd, a⟩ as) (storeLoop ⟨p, c, args, bd, a'⟩ as) := by
  induction as with
  | nil => exact M.Sim.pure _
  | cons e es ih =>
    simp only [storeLoop]
    exact M.Sim.bind (h.writeAtom _) fun _ => ih

/-- What a query function does in both worlds. -/
def QuerySim (π : V → W) (f : List Value → Ctx V → M V QOut) (g : List Value → Ctx W → M W QOut) : Prop :=
  ∀ db p c args bd a a', SolverApi.Sim π a a' → M.Sim π (f db ⟨p, c, args, bd, a⟩) (g db ⟨p, c, args, bd, a'⟩)

/-- Key by key. -/
def TableSim (π : V → W) : Dict (List Value → Ctx V → M V QOut) → Dict (List Value → Ctx W → M W QOut) → Prop
  | [], [] => True
  | (k, f) :: fs, (k', g) :: gs => k = k' ∧ QuerySim π f g ∧ TableSim π fs gs
  | _, _ => False

theorem TableSim.get {fs : Dict (List Value → Ctx V → M V QOut)} {gs : Dict (List Value → Ctx W → M W QOut)} (h : TableSim π fs gs) (p : String) :
    match fs.get p, gs.get p with
    | none, none => True
    | some f, some g => QuerySim π f g
    | _, _ => False := by
  induction fs generalizing gs with
  | nil => cases gs with
    | nil => trivial
    | cons => exact h.elim
  | cons kf fs ih => cases gs with
    | nil => exact h.elim
    | cons kg gs =>
      obtain ⟨k, f⟩ := kf
      obtain ⟨k', g⟩ := kg
      obtain ⟨h1, h2, h3⟩ := h
      cases h1
      simp only [Dict.get_cons]
      by_cases hk : k = p
      · simp only [if_pos hk]; exact h2
      · simp only [if_neg hk]; exact ih h3

theorem coreTable_sim : TableSim π (coreTable V) (coreTable W) := by
  refine ⟨rfl, ?_, rfl, ?_, rfl, ?_, rfl, ?_, rfl, ?_, rfl, ?_, rfl, ?_, rfl, ?_, rfl, ?_, rfl, ?_, rfl, ?_, rfl, ?_, rfl, ?_, rfl, ?_, rfl, ?_,
    rfl, ?_, rfl, ?_, rfl, ?_, rfl, ?_, rfl, ?_, rfl, ?_, rfl, ?_, trivial⟩ <;> intro db p c args bd a a' h
  · simp only [coreEquals]; sim_tac h
  · simp only [coreGreaterThan]; sim_tac h
  · simp only [coreLessThan]; sim_tac h
  · simp only [coreMultiply]; sim_tac h
  · simp only [coreArgMin, coreArg]; sim_tac h
  · simp only [coreArgMax, coreArg]; sim_tac h
  · simp only [coreSum]; sim_tac h
  · simp only [coreAvg]; sim_tac h
  · simp only [corePercentage]; sim_tac h
  · simp only [coreCount]; sim_tac h
  · simp only [coreNot]; sim_tac h
  · simp only [coreLet]; sim_tac h
  · simp only [coreDetEquals]; sim_tac h
  · simp only [coreDetGreaterThan]; sim_tac h
  · simp only [coreDetLessThan]; sim_tac h
  · simp only [coreAll]
    refine M.Sim.bind (nth_sim _ _) fun _ => M.Sim.bind (nth_sim _ _) fun _ => M.Sim.bind (nth_sim _ _) fun _ =>
      M.Sim.bind (h.solve _ _) fun _ => M.Sim.bind (iterSol_sim _ _) fun _ => M.Sim.bind (M.Sim.lift _) fun _ =>
      M.Sim.bind (M.Sim.lift _) fun es => ?_
    cases es with
    | nil => exact M.Sim.pure _
    | cons e es =>
      refine M.Sim.bind (M.Sim.lift _) fun _ => M.Sim.bind (allLoop_sim h _ _ _ _ _ _ _ _) fun _ => ?_
      split <;> exact M.Sim.pure _
  · simp only [coreNone]; sim_tac h
  · simp only [coreScoped]; sim_tac h
  · simp only [coreStore]
    refine M.Sim.bind (nth_sim _ _) fun v => ?_
    split
    · exact M.Sim.bind (storeLoop_sim h _ _ _ _ _) fun _ => M.Sim.pure _
    · exact M.Sim.throw _
  · have hgo : ∀ atom, M.Sim π (coreDestructure.go ⟨p, c, args, bd, a⟩ atom) (coreDestructure.go ⟨p, c, args, bd, a'⟩ atom) := by
      intro atom
      simp only [coreDestructure.go]
      sim_tac h
    simp only [coreDestructure]
    refine M.Sim.bind (nth_sim _ _) fun v => ?_
    split <;> first | exact hgo _ | exact M.Sim.throw _
  · simp only [coreFindAll, findAllValues]; sim_tac h
  · simp only [coreFindOne, findAllValues]; sim_tac h

/-- The core module. -/
theorem coreModule_sim : Module.Sim π (coreModule V) (coreModule W) := by
  intro v p
  have h := (coreTable_sim (π := π)).get p
  simp only [coreModule]
  split at h
  · rename_i e e'; rw [e, e']; trivial
  · rename_i e e'; rw [e, e']; exact ⟨rfl, rfl, h, trivial⟩
  · exact h.elim

theorem tableModule_sim (db : Dict (List (List Value))) : Module.Sim π (tableModule V db) (tableModule W db) := by
  intro v p
  simp only [tableModule]
  cases db.get p with
  | none => trivial
  | some rows => exact ⟨rfl, rfl, fun _ _ _ _ _ _ _ _ => M.Sim.pure _, trivial⟩

/-- The same object in both worlds. -/
structure Lens.Sim {S : Type} (π : V → W) (l : Lens V S) (l' : Lens W S) : Prop where
  get : ∀ v, l.get v = l'.get (π v)
  put : ∀ s v, π (l.put s v) = l'.put s (π v)

theorem solveRule_sim (h : SolverApi.Sim π a a') (r : Rule) (args : List Value) (b : Binding) :
    M.Sim π (solveRule r args a b) (solveRule r args a' b) := by
  have hr : ∀ ras as o, M.Sim π (ruleRows ras as o) (ruleRows ras as o) := by
    intro ras as o
    cases o with
    | rows sols => exact M.Sim.pure _
    | iter single n => exact M.Sim.bind (M.Sim.lift _) fun _ => M.Sim.pure _
  simp only [solveRule]
  split
  · exact M.Sim.pure _
  · split
    · exact M.Sim.bind (M.Sim.pure _) fun _ => hr _ _ _
    · exact M.Sim.bind (h.solve _ _) fun _ => hr _ _ _

theorem solveRules_sim (h : SolverApi.Sim π a a') (rs : List Rule) (args : List Value) (b : Binding)
    (acc : List (List Value)) : M.Sim π (solveRules args a b rs acc) (solveRules args a' b rs acc) := by
  induction rs generalizing acc with
  | nil => exact M.Sim.pure _
  | cons r rs ih => exact M.Sim.bind (solveRule_sim h r args b) fun _ => ih _

theorem inferenceModule_sim {l : Lens V InfState} {l' : Lens W InfState} (hl : l.Sim π l') : Module.Sim π (inferenceModule l) (inferenceModule l') := by
  intro v p
  simp only [inferenceModule, hl.get]
  cases (l'.get (π v)).relations.get p with
  | none => trivial
  | some f =>
    refine ⟨rfl, rfl, fun db p' c args bd a a' ha => ?_, trivial⟩
    cases f with
    | learnRule =>
      simp only [learnRule]
      split
      · exact M.Sim.bind (M.Sim.gets hl.get) fun _ => M.Sim.bind (M.Sim.lift _) fun _ => M.Sim.bind (M.Sim.modify fun _ => hl.put _ _) fun _ => M.Sim.pure _
      · exact M.Sim.throw _
      · exact M.Sim.throw _
    | handleRule =>
      simp only [handleRule]
      refine M.Sim.bind (M.Sim.gets hl.get) fun s => ?_
      split
      · exact M.Sim.throw _
      · exact M.Sim.bind (solveRules_sim ha _ _ _ _) fun _ => M.Sim.pure _

theorem memoryModule_sim {l : Lens V SimpleStore} {l' : Lens W SimpleStore} (hl : l.Sim π l') (rels : Dict (List String)) :
    Module.Sim π (memoryModule l rels) (memoryModule l' rels) := by
  intro v p
  simp only [memoryModule]
  cases rels.get p with
  | none => trivial
  | some cs =>
    refine ⟨rfl, rfl, fun db p' c args bd a a' ha => ?_, fun db p' c args bd a a' ha => ?_⟩
    · exact M.Sim.bind (M.Sim.gets hl.get) fun _ => M.Sim.bind (M.Sim.lift _) fun _ => M.Sim.pure _
    · exact M.Sim.modify fun v => by rw [hl.put, hl.get]

theorem sqlDo_sim {l : Lens V SqlDb} {l' : Lens W SqlDb} (hl : l.Sim π l') (f : SqlDb → Except Err SqlDb) : M.Sim π (sqlDo l f) (sqlDo l' f) := by
  intro v
  simp only [sqlDo, hl.get]
  cases f (l'.get (π v)) <;> simp [Res.mapWorld, hl.put]

theorem dialogContext_sim {l : Lens V SqlDb} {l' : Lens W SqlDb} (hl : l.Sim π l') : Module.Sim π (dialogContext l) (dialogContext l') := by
  have hsel : QuerySim π (sqlQuery l) (sqlQuery l') := fun db p c args bd a a' h =>
    M.Sim.bind (M.Sim.gets hl.get) fun _ => M.Sim.bind (M.Sim.lift _) fun _ => M.Sim.pure _
  have hw : QuerySim π (withContext l) (withContext l') := fun db p c args bd a a' h =>
    M.Sim.bind (nth_sim _ _) fun _ => M.Sim.bind (nth_sim _ _) fun _ => M.Sim.bind (sqlDo_sim hl _) fun _ => M.Sim.bind (h.solve _ _) fun _ =>
      M.Sim.bind (sqlDo_sim hl _) fun _ => M.Sim.pure _
  have hs : QuerySim π (startContext l) (startContext l') := fun db p c args bd a a' h =>
    M.Sim.bind (nth_sim _ _) fun _ => M.Sim.bind (sqlDo_sim hl _) fun _ => M.Sim.pure _
  have he : QuerySim π (endContext l) (endContext l') := fun db p c args bd a a' h =>
    M.Sim.bind (nth_sim _ _) fun _ => M.Sim.bind (sqlDo_sim hl _) fun _ => M.Sim.pure _
  intro v p
  have hcase : ∀ (cs : List String) f g, QuerySim π f g →
      Relation.Sim π { predicate := p, columns := cs, query := f, write := some (sqlWrite l) }
        { predicate := p, columns := cs, query := g, write := some (sqlWrite l') } :=
    fun cs f g h => ⟨rfl, rfl, h, fun _ _ _ _ _ _ _ _ => sqlDo_sim hl _⟩
  simp only [dialogContext, dialogTable, Dict.get_cons, Dict.get_nil]
  by_cases h1 : "dialog_isa" = p
  · simp only [if_pos h1]; exact hcase _ _ _ hsel
  · simp only [if_neg h1]
    by_cases h2 : "context" = p
    · simp only [if_pos h2]; exact hcase _ _ _ hsel
    · simp only [if_neg h2]
      by_cases h3 : "with_context" = p
      · simp only [if_pos h3]; exact hcase _ _ _ hw
      · simp only [if_neg h3]
        by_cases h4 : "start_context" = p
        · simp only [if_pos h4]; exact hcase _ _ _ hs
        · simp only [if_neg h4]
          by_cases h5 : "end_context" = p
          · simp only [if_pos h5]; exact hcase _ _ _ he
          · simp only [if_neg h5]; trivial

open Sql in
theorem dbModule_sim {l : Lens V Db} {l' : Lens W Db} (hl : l.Sim π l') (d : Dialect) (rels : Dict (List String)) :
    Module.Sim π (dbModule d l rels) (dbModule d l' rels) := by
  intro v p
  simp only [dbModule]
  cases rels.get p with
  | none => trivial
  | some cs =>
    refine ⟨rfl, rfl, fun db p' c args bd a a' ha => ?_, fun db p' c args bd a a' ha => ?_⟩
    · exact M.Sim.bind (M.Sim.gets hl.get) fun _ => M.Sim.bind (M.Sim.lift _) fun _ => M.Sim.pure _
    · intro v
      simp only [dbWrite, hl.get]
      cases Sql.insert d p.toList (cs.map String.toList) db (l'.get (π v)) <;> simp [Res.mapWorld, hl.put]

open Sql in
theorem selectModule_sim {l : Lens V Db} {l' : Lens W Db} (hl : l.Sim π l') (d : Dialect) (st : Style) (rels : Dict (String × List String)) :
    Module.Sim π (selectModule d st l rels) (selectModule d st l' rels) := by
  intro v p
  simp only [selectModule]
  cases rels.get p with
  | none => trivial
  | some tc =>
    exact ⟨rfl, rfl, fun db p' c args bd a a' ha =>
      M.Sim.bind (M.Sim.gets hl.get) fun _ => M.Sim.bind (M.Sim.lift _) fun _ => M.Sim.pure _, trivial⟩

end

end Verif
