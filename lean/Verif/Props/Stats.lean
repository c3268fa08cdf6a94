import Verif.Simulate
import Verif.Props.FirstOrder

/-!
# C98, C99: the statistics of the solver
-/

namespace Verif

/-! ## C98: counting does not change what is answered -/

section
variable {V W : Type} {π : V → W}

/-- **C98** A solver that keeps statistics has the outcomes of one that does not: the same answers, the same changes of the world, the same exceptions,
and it ends precisely when the other does. `π` forgets the statistics; the modules may be any that do the same in both worlds. -/
theorem C98_same_outcome {st : Lens V Stats} (hst : ∀ s v, π (st.put s v) = π v) (log : Bool) {ms : List (Module V)} {ms' : List (Module W)}
    (hm : ModsSim π ms ms') (n : Nat) (q : Value) (b : Binding) (v : V) :
    ((solverStats st log ms n).solve q b v).mapWorld π = (solverAt ms' n).solve q b (π v) :=
  (solverStats_sim hst log hm n).solve q b v

/-- **C98** (writing) The same for storing an atom. -/
theorem C98_same_writes {st : Lens V Stats} (hst : ∀ s v, π (st.put s v) = π v) (log : Bool) {ms : List (Module V)} {ms' : List (Module W)}
    (hm : ModsSim π ms ms') (n : Nat) (a : Value) (v : V) :
    ((solverStats st log ms n).writeAtom a v).mapWorld π = (solverAt ms' n).writeAtom a (π v) :=
  (solverStats_sim hst log hm n).writeAtom a v

end

section
variable {W : Type}

/-- The modules of the library, with the objects they use. -/
inductive LibraryModule (W : Type) where
  | table (db : Dict (List (List Value)))
  | rules (l : Lens W InfState)
  | memory (l : Lens W SimpleStore) (rels : Dict (List String))
  | dialog (l : Lens W SqlDb)
  | database (d : Sql.Dialect) (l : Lens W Sql.Db) (rels : Dict (List String))
  | select (d : Sql.Dialect) (style : Sql.Style) (l : Lens W Sql.Db) (rels : Dict (String × List String))

/-- The module. -/
def LibraryModule.module_ : LibraryModule W → Module W
  | .table db => tableModule W db
  | .rules l => inferenceModule l
  | .memory l rels => memoryModule l rels
  | .dialog l => dialogContext l
  | .database d l rels => Sql.dbModule d l rels
  | .select d style l rels => Sql.selectModule d style l rels

/-- The module in a world that has statistics as well. -/
def LibraryModule.withStats : LibraryModule W → Module (W × Stats)
  | .table db => tableModule _ db
  | .rules l => inferenceModule ((Lens.fst W Stats).comp l)
  | .memory l rels => memoryModule ((Lens.fst W Stats).comp l) rels
  | .dialog l => dialogContext ((Lens.fst W Stats).comp l)
  | .database d l rels => Sql.dbModule d ((Lens.fst W Stats).comp l) rels
  | .select d style l rels => Sql.selectModule d style ((Lens.fst W Stats).comp l) rels

theorem fst_comp_sim {S : Type} (l : Lens W S) : Lens.Sim Prod.fst ((Lens.fst W Stats).comp l) l := ⟨fun _ => rfl, fun _ _ => rfl⟩

theorem LibraryModule.sim (m : LibraryModule W) : Module.Sim Prod.fst m.withStats m.module_ := by
  cases m with
  | table db => exact tableModule_sim db
  | rules l => exact inferenceModule_sim (fst_comp_sim l)
  | memory l rels => exact memoryModule_sim (fst_comp_sim l) rels
  | dialog l => exact dialogContext_sim (fst_comp_sim l)
  | database d l rels => exact dbModule_sim (fst_comp_sim l) d rels
  | select d style l rels => exact selectModule_sim (fst_comp_sim l) d style rels

theorem library_sim (ms : List (LibraryModule W)) :
    ModsSim Prod.fst (modelOf (ms.map LibraryModule.withStats)) (modelOf (ms.map LibraryModule.module_)) := by
  refine ⟨coreModule_sim, ?_⟩
  induction ms with
  | nil => trivial
  | cons m ms ih => exact ⟨m.sim, ih⟩

/-- **C98** (the library) For a model with modules of the library: stored tables, inference rules, memories, the dialog context, modules on a database. -/
theorem C98_library (ms : List (LibraryModule W)) (log : Bool) (n : Nat) (q : Value) (b : Binding) (w : W) (s : Stats) :
    ((solverStats (Lens.snd W Stats) log (modelOf (ms.map LibraryModule.withStats)) n).solve q b (w, s)).mapWorld Prod.fst =
      (solverAt (modelOf (ms.map LibraryModule.module_)) n).solve q b w :=
  C98_same_outcome (fun _ _ => rfl) log (library_sim ms) n q b (w, s)

theorem writeAll_sim {V : Type} {π : V → W} {a : SolverApi V} {a' : SolverApi W} (h : SolverApi.Sim π a a') (as : List Value) :
    M.Sim π (writeAll a as) (writeAll a' as) := by
  induction as with
  | nil => exact M.Sim.pure _
  | cons v as ih => exact M.Sim.bind (h.writeAtom v) fun _ => ih

/-- **C98** (the executor) With statistics the executor of sentences has the same outcome as without, and what it adds to its product are the statistics
of its solver when it is done. -/
theorem C98_executor {T : Type} (ms : List (LibraryModule W)) (log : Bool) (n : Nat) (i c : Nat) (request : Request (Product T))
    {incoming : ComposerProduct} (hr : request.current c = some (.composed incoming)) (w : W) (s : Stats) :
    (∀ w' s' out stats, executeStats (Lens.snd W Stats) log (modelOf (ms.map LibraryModule.withStats)) n incoming (w, s) = .ok (w', s') (out, stats) →
        stats = s' ∧ (atomExecutor i c (solverAt (modelOf (ms.map LibraryModule.module_)) n)).process request w = .ok w' ⟨[.executed out], "", []⟩) ∧
    (∀ w' result, (atomExecutor i c (solverAt (modelOf (ms.map LibraryModule.module_)) n)).process request w = .ok w' result →
        ∃ s' out, result = ⟨[.executed out], "", []⟩ ∧
          executeStats (Lens.snd W Stats) log (modelOf (ms.map LibraryModule.withStats)) n incoming (w, s) = .ok (w', s') (out, s')) ∧
    (∀ w' e, (atomExecutor i c (solverAt (modelOf (ms.map LibraryModule.module_)) n)).process request w = .err w' e ↔
        ∃ s', executeStats (Lens.snd W Stats) log (modelOf (ms.map LibraryModule.withStats)) n incoming (w, s) = .err (w', s') e) := by
  have ha := solverStats_sim (π := Prod.fst) (st := Lens.snd W Stats) (fun _ _ => rfl) log (library_sim ms) n
  generalize hA : solverStats (Lens.snd W Stats) log (modelOf (ms.map LibraryModule.withStats)) n = A at ha
  generalize hB : solverAt (modelOf (ms.map LibraryModule.module_)) n = B at ha
  -- the part in which the solver works
  let x : M (W × Stats) SolOut := writeAll A incoming.inferences >>= fun _ => A.solve incoming.executable [] >>= fun _ => A.solve incoming.lastIteration []
  let y : M W SolOut := writeAll B incoming.inferences >>= fun _ => B.solve incoming.executable [] >>= fun _ => B.solve incoming.lastIteration []
  have hxy : M.Sim Prod.fst x y := M.Sim.bind (writeAll_sim ha _) fun _ => M.Sim.bind (ha.solve _ _) fun _ => ha.solve _ _
  have hx : executeStats (Lens.snd W Stats) log (modelOf (ms.map LibraryModule.withStats)) n incoming (w, s) =
      (x >>= fun out => M.gets (Lens.snd W Stats).get >>= fun stats => pure (out, stats)) (w, []) := by
    simp only [executeStats, hA]
    rw [M.bind_ok (M.modify_run _ _)]
    simp only [x, M.bind_assoc]
    rfl
  have hy : (atomExecutor i c B).process request w =
      (y >>= fun out => pure (⟨[.executed out], "", []⟩ : ProcResult (Product T))) w := by
    simp only [atomExecutor, hr, y, M.bind_assoc]
  have hv := hxy (w, [])
  rw [hx, hy, M.bind_run, M.bind_run]
  simp only at hv
  rw [← hv]
  cases x (w, []) with
  | ok v' o =>
    obtain ⟨w1, s1⟩ := v'
    refine ⟨fun w' s' out stats h => ?_, fun w' result h => ?_, fun w' e => ?_⟩
    · change (Res.ok (w1, s1) (o, s1) : Res (W × Stats) (SolOut × Stats)) = _ at h
      simp only [Res.ok.injEq, Prod.mk.injEq] at h
      obtain ⟨⟨rfl, rfl⟩, rfl, rfl⟩ := h
      exact ⟨rfl, rfl⟩
    · simp only [Res.mapWorld, M.pure_run, Res.ok.injEq] at h
      obtain ⟨rfl, rfl⟩ := h
      exact ⟨s1, o, rfl, rfl⟩
    · constructor
      · intro h; simp [Res.mapWorld] at h
      · rintro ⟨s', h⟩
        change (Res.ok (w1, s1) (o, s1) : Res (W × Stats) (SolOut × Stats)) = _ at h
        cases h
  | err v' e =>
    obtain ⟨w1, s1⟩ := v'
    refine ⟨fun w' s' out stats h => by simp at h, fun w' result h => by simp [Res.mapWorld] at h, fun w' e' => ?_⟩
    simp only [Res.mapWorld, Res.err.injEq, Prod.mk.injEq]
    constructor
    · rintro ⟨rfl, rfl⟩; exact ⟨s1, ⟨rfl, rfl⟩, rfl⟩
    · rintro ⟨s', ⟨rfl, rfl⟩, rfl⟩; exact ⟨rfl, rfl⟩
  | oof =>
    exact ⟨fun w' s' out stats h => by simp at h, fun w' result h => by simp [Res.mapWorld] at h, fun w' e' => by simp [Res.mapWorld]⟩

/-- **C98** (anew) The executor starts with empty statistics: those that are there before do not matter. -/
theorem C98_anew (ms : List (LibraryModule W)) (log : Bool) (n : Nat) (incoming : ComposerProduct) (w : W) (s s' : Stats) :
    executeStats (Lens.snd W Stats) log (modelOf (ms.map LibraryModule.withStats)) n incoming (w, s) =
      executeStats (Lens.snd W Stats) log (modelOf (ms.map LibraryModule.withStats)) n incoming (w, s') := by
  simp only [executeStats]
  rw [M.bind_ok (M.modify_run _ _), M.bind_ok (M.modify_run _ _)]
  rfl

/-- **C98** (off) Without `log_stats` nothing is counted. -/
theorem C98_off (st : Lens W Stats) (ms : List (Module W)) (n : Nat) : solverStats st false ms n = solverAt ms n := by
  have hs : ∀ (api : SolverApi W) atom b, solveSingleStats st false api ms atom b = solveSingle api ms atom b := by
    intro api atom b
    unfold solveSingleStats solveSingle
    split
    · rfl
    · rfl
    · rfl
    · rfl
    · rename_i h1 h2 h3 h4
      split
      · exact absurd rfl (h1 _ _)
      · exact absurd rfl (h2 _ _)
      · exact absurd rfl h3
      · exact absurd rfl h4
      · rfl
  have ha : ∀ (api : SolverApi W) as b, solveAtomsStats st false api ms as b = solveAtoms api ms as b := by
    intro api as
    induction as with
    | nil => intro b; rfl
    | cons a rest ih =>
      intro b
      cases rest with
      | nil => exact hs api a b
      | cons a2 rest =>
        have e : solveAtomsStats st false api ms (a2 :: rest) = solveAtoms api ms (a2 :: rest) := funext ih
        simp only [solveAtomsStats, solveAtoms, hs]
        rw [e]
        rfl
  induction n with
  | zero => rfl
  | succ n ih =>
    simp only [solverStats, solverAt, ih]
    congr 1
    funext q b
    unfold solveValueStats solveValue
    split
    · exact ha _ _ _
    · rename_i h1
      split
      · exact absurd rfl (h1 _)
      · rfl

end

end Verif
