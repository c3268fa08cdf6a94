import Verif.MonoModules
import Verif.Props.Solver

/-!
# Properties of the solver: C03, C22
-/

namespace Verif

variable {W : Type}

/-! ## C22 -/

/-- **C22.** Two runs of `solve` from the same world that both finish (within whatever depth) have the same outcome: the
same answers, the same final world, or the same exception. Holds for every list of modules whose relations cannot
observe that a call they made has not returned. -/
theorem C22_outcome_independent_of_depth (mods : List (Module W)) (hm : MonoMods mods) (n m : Nat) (v : Value)
    (b : Binding) (w : W) (h1 : (solverAt mods n).solve v b w ≠ .oof) (h2 : (solverAt mods m).solve v b w ≠ .oof) :
    (solverAt mods n).solve v b w = (solverAt mods m).solve v b w := by
  rcases Nat.le_total n m with h | h
  · rcases (solverAt_le hm h).solve v b w with e | e
    · exact absurd e h1
    · exact e
  · rcases (solverAt_le hm h).solve v b w with e | e
    · exact absurd e h2
    · exact e.symm

/-- **C22** (the library's own modules satisfy the hypothesis): any model made of the core module, inference modules and
modules over stored rows. -/
theorem C22_library_modules (ls : List (Lens W InfState)) (dbs : List (Dict (List (List Value)))) :
    MonoMods (modelOf (ls.map inferenceModule ++ dbs.map (tableModule W))) := by
  intro m hm w p r hr
  simp only [modelOf, List.mem_cons, List.mem_append, List.mem_map] at hm
  rcases hm with rfl | ⟨l, -, rfl⟩ | ⟨db, -, rfl⟩
  · exact coreModule_mono w p r hr
  · exact inferenceModule_mono l w p r hr
  · exact tableModule_mono db w p r hr

example : (solverAt (modelOf [tableModule Unit Ex.db]) 1).solve Ex.grand [] () ≠ .oof ∧
    (solverAt (modelOf [tableModule Unit Ex.db]) 7).solve Ex.grand [] () ≠ .oof ∧
    MonoMods (modelOf [tableModule Unit Ex.db]) :=
  ⟨by decide +kernel, by decide +kernel, C22_library_modules [] [Ex.db]⟩

/-! ## C03 -/

/-- A run that leaves the world as it was if it returns. -/
def PureRun {α : Type} (x : M W α) : Prop := ∀ w w' a, x w = .ok w' a → w' = w

/-- Relations that leave the world alone if the solver they call does. -/
def PureMods (mods : List (Module W)) : Prop :=
  ∀ m ∈ mods, ∀ w p r, m.relations w p = some r → ∀ db p' c args bd (a : SolverApi W),
    (∀ v b, PureRun (a.solve v b)) → (∀ v, PureRun (a.writeAtom v)) → PureRun (r.query db ⟨p', c, args, bd, a⟩) ∧
      ∀ f, r.write = some f → PureRun (f db ⟨p', c, args, bd, a⟩)

theorem PureRun.pure {α : Type} (a : α) : PureRun (Pure.pure a : M W α) := by
  intro w w' x h; simp at h; exact h.1.symm

theorem PureRun.throw {α : Type} (e : Err) : PureRun (M.throw e : M W α) := by
  intro w w' x h; simp at h

theorem PureRun.lift {α : Type} (e : Except Err α) : PureRun (M.lift e : M W α) := by
  intro w w' x h; rw [M.lift_eq_ok] at h; exact h.1.symm

theorem PureRun.bind {α β : Type} {x : M W α} {f : α → M W β} (hx : PureRun x) (hf : ∀ a, PureRun (f a)) :
    PureRun (x >>= f) := by
  intro w w' b h
  rw [M.bind_eq_ok] at h
  obtain ⟨w1, a, h1, h2⟩ := h
  rw [hf a _ _ _ h2, hx _ _ _ h1]

theorem PureRun.gets {α : Type} (f : W → α) : PureRun (M.gets f) := by
  intro w w' x h; simp at h; exact h.1.symm

theorem findRelations_mem {mods : List (Module W)} {w : W} {p : String} {r : Relation W}
    (h : r ∈ findRelations mods w p) : ∃ m ∈ mods, m.relations w p = some r := by
  simpa only [findRelations, List.mem_filterMap] using h

/-- The solver is pure. -/
structure PureApi (a : SolverApi W) : Prop where
  solve : ∀ v b, PureRun (a.solve v b)
  writeAtom : ∀ v, PureRun (a.writeAtom v)

theorem queryRelations_pure {a : SolverApi W} (mult : Bool) (args : List Value) (b : Binding)
    (db : List Value) {rels : List (Relation W)}
    (hr : ∀ r ∈ rels, ∀ db p' c args bd, PureRun (r.query db ⟨p', c, args, bd, a⟩)) (acc : List (List Value)) :
    PureRun (queryRelations a mult args b db rels acc) := by
  induction rels generalizing acc with
  | nil => exact PureRun.pure _
  | cons r rs ih =>
    simp only [queryRelations]
    refine PureRun.bind (hr r (by simp) _ _ _ _ _) ?_
    intro out
    cases out with
    | iter n => dsimp only; split <;> first | exact PureRun.throw _ | exact PureRun.pure _
    | rows rows => exact ih (fun r hr' => hr r (List.mem_cons_of_mem _ hr')) _

theorem solveDisjuncts_pure {a : SolverApi W} (ha : PureApi a) (b : Binding) (ds : List Value) :
    PureRun (solveDisjuncts a b ds) := by
  induction ds with
  | nil => exact PureRun.pure _
  | cons d ds ih =>
    refine PureRun.bind (ha.solve _ _) fun out => ?_
    split
    · exact PureRun.pure _
    · exact ih

theorem resultsOf_pure (b : Binding) (args : List Value) (q : QOut) : PureRun (resultsOf b args q : M W SolOut) := by
  intro w w' out h; exact (resultsOf_ok h).1

theorem solveSingle_pure {a : SolverApi W} (ha : PureApi a) {mods : List (Module W)} (hm : PureMods mods) (atom : Value)
    (b : Binding) : PureRun (solveSingle a mods atom b) := by
  have hgo : ∀ p args, PureRun (solveSingle.go a mods b p args) := by
    intro p args
    simp only [solveSingle.go]
    split
    · split
      · exact solveDisjuncts_pure ha _ _
      · exact solveDisjuncts_pure ha _ _
      · exact PureRun.throw _
      · exact PureRun.throw _
    · refine PureRun.bind ?_ fun q => resultsOf_pure _ _ _
      intro w w' out h
      simp only [findRelationValues] at h
      rw [M.bind_ok (M.gets_run _ w)] at h
      have hmem : ∀ r ∈ findRelations mods w p, ∃ m ∈ mods, m.relations w p = some r := fun r hr => findRelations_mem hr
      cases hf : findRelations mods w p with
      | nil => rw [hf] at h; simp at h
      | cons r rs =>
        rw [hf] at h hmem
        refine queryRelations_pure _ _ _ _ ?_ _ w w' out h
        intro r' hr' db p' c args bd
        obtain ⟨m, hmm, e⟩ := hmem r' hr'
        exact (hm m hmm w p r' e db p' c args bd a ha.solve ha.writeAtom).1
  unfold solveSingle
  split
  · exact hgo _ _
  · exact hgo _ _
  · exact PureRun.throw _
  · exact PureRun.throw _
  · exact PureRun.throw _

theorem collect_pure {f : Binding → M W SolOut} (h : ∀ b, PureRun (f b)) (bs acc : List Binding) :
    PureRun (collect f bs acc) := by
  induction bs generalizing acc with
  | nil => exact PureRun.pure _
  | cons b bs ih =>
    refine PureRun.bind (h b) fun out => ?_
    match out with
    | .rows rs => exact ih _
    | .iter _ 0 => exact ih _
    | .iter _ (_ + 1) => exact PureRun.throw _

theorem solveAtoms_pure {a : SolverApi W} (ha : PureApi a) {mods : List (Module W)} (hm : PureMods mods)
    (as : List Value) (b : Binding) : PureRun (solveAtoms a mods as b) := by
  induction as generalizing b with
  | nil => exact PureRun.pure _
  | cons x rest ih =>
    cases rest with
    | nil => exact solveSingle_pure ha hm x b
    | cons a2 rest =>
      refine PureRun.bind (solveSingle_pure ha hm x b) fun out => ?_
      match out with
      | .rows rs => exact collect_pure ih _ _
      | .iter _ 0 => exact PureRun.pure _
      | .iter _ (_ + 1) => exact PureRun.throw _

theorem writeRelations_pure {a : SolverApi W} (args : List Value) {rels : List (Relation W)}
    (hr : ∀ r ∈ rels, ∀ f, r.write = some f → ∀ db p' c args bd, PureRun (f db ⟨p', c, args, bd, a⟩)) :
    PureRun (writeRelations a args rels) := by
  induction rels with
  | nil => exact PureRun.pure _
  | cons r rs ih =>
    have ih := ih (fun r hr' => hr r (List.mem_cons_of_mem _ hr'))
    simp only [writeRelations]
    split
    · rename_i f hf
      exact PureRun.bind (hr r (by simp) f hf _ _ _ _ _) fun _ => ih
    · exact ih

theorem writeAtom_pure {a : SolverApi W} (ha : PureApi a) {mods : List (Module W)} (hm : PureMods mods)
    (v : Value) : PureRun (writeAtom a mods v) := by
  have hgo : ∀ p args, PureRun (writeAtom.go a mods p args) := by
    intro p args w w' out h
    simp only [writeAtom.go] at h
    rw [M.bind_ok (M.gets_run _ w)] at h
    have hmem : ∀ r ∈ findRelations mods w p, ∃ m ∈ mods, m.relations w p = some r := fun r hr => findRelations_mem hr
    cases hf : findRelations mods w p with
    | nil => rw [hf] at h; simp at h
    | cons r rs =>
      rw [hf] at h hmem
      refine writeRelations_pure _ ?_ w w' out h
      intro r' hr' f hf' db p' c args bd
      obtain ⟨m, hmm, e⟩ := hmem r' hr'
      exact (hm m hmm w p r' e db p' c args bd a ha.solve ha.writeAtom).2 f hf'
  unfold writeAtom
  split
  · exact hgo _ _
  · exact hgo _ _
  · exact PureRun.throw _
  · exact PureRun.throw _
  · exact PureRun.throw _

theorem solverAt_pure {mods : List (Module W)} (hm : PureMods mods) (n : Nat) : PureApi (solverAt mods n) := by
  induction n with
  | zero => exact ⟨fun _ _ w w' a h => by simp [solverAt] at h, fun _ w w' a h => by simp [solverAt] at h⟩
  | succ n ih =>
    refine ⟨fun v b => ?_, fun v => writeAtom_pure ih hm v⟩
    show PureRun (solveValue _ _ _ _)
    unfold solveValue
    split
    · exact solveAtoms_pure ih hm _ _
    · exact PureRun.throw _

theorem tableModule_pure (dbs : List (Dict (List (List Value)))) : PureMods (dbs.map (tableModule W)) := by
  intro m hm w p r hr db p' c args bd a _ _
  simp only [List.mem_map] at hm
  obtain ⟨d, -, rfl⟩ := hm
  simp only [tableModule, Option.map_eq_some_iff] at hr
  obtain ⟨rows, -, rfl⟩ := hr
  exact ⟨PureRun.pure _, fun f h => by simp [tableRelation] at h⟩

/-- `b'` can be reached from `b` by solving the atoms one by one, each from a result of the one before.
This is the specification of a conjunction: the relational composition of its atoms. -/
inductive Chain (mods : List (Module W)) (n : Nat) (w : W) : List Value → Binding → Binding → Prop
  | nil (b) : Chain mods n w [] b b
  | cons (a as b b1 b' bs) : (solverAt mods n).solve (.list [a]) b w = .ok w (.rows bs) → b1 ∈ bs →
      Chain mods n w as b1 b' → Chain mods n w (a :: as) b b'

theorem Chain.append {mods : List (Module W)} {n : Nat} {w : W} {as cs : List Value} {b b' : Binding} :
    Chain mods n w (as ++ cs) b b' ↔ ∃ b1, Chain mods n w as b b1 ∧ Chain mods n w cs b1 b' := by
  induction as generalizing b with
  | nil =>
    constructor
    · intro h; exact ⟨b, .nil b, h⟩
    · rintro ⟨b1, h1, h2⟩; cases h1; exact h2
  | cons a as ih =>
    constructor
    · intro h
      cases h with
      | cons _ _ _ b2 _ bs h1 h2 h3 =>
        obtain ⟨b1, h4, h5⟩ := ih.1 h3
        exact ⟨b1, .cons _ _ _ _ _ _ h1 h2 h4, h5⟩
    · rintro ⟨b1, h1, h2⟩
      cases h1 with
      | cons _ _ _ b2 _ bs h3 h4 h5 => exact .cons _ _ _ _ _ _ h3 h4 (ih.2 ⟨b1, h5, h2⟩)

/-- What `collect` returns when the runs are pure: all runs returned, and every result of every run is represented. -/
theorem collect_ok {f : Binding → M W SolOut} (hf : ∀ b, PureRun (f b)) {bs acc : List Binding} {w w' : W}
    {out : SolOut} (h : collect f bs acc w = .ok w' out) :
    ∃ rs, out = .rows rs ∧ (∀ r ∈ acc, r ∈ rs) ∧
      (∀ r ∈ rs, r ∈ acc ∨ ∃ b ∈ bs, ∃ rs1, f b w = .ok w (.rows rs1) ∧ r ∈ rs1) ∧
      (∀ b ∈ bs, ∃ o, f b w = .ok w o ∧ ((∃ s, o = .iter s 0) ∨ ∃ rs1, o = .rows rs1 ∧ ∀ r ∈ rs1, ∃ r' ∈ rs, SameDict r' r)) := by
  induction bs generalizing acc w with
  | nil =>
    simp only [collect, M.pure_eq_ok] at h
    exact ⟨acc, h.2.symm, fun r hr => hr, fun r hr => .inl hr, by simp⟩
  | cons b bs ih =>
    simp only [collect, M.bind_eq_ok] at h
    obtain ⟨w1, o, h1, h2⟩ := h
    have : w1 = w := hf b _ _ _ h1
    subst this
    match o with
    | .rows rs1 =>
      obtain ⟨rs, e, ha, hs, hc⟩ := ih h2
      refine ⟨rs, e, fun r hr => ha r (mem_foldl_addNew_of_mem hr), fun r hr => ?_, fun b' hb' => ?_⟩
      · rcases hs r hr with h | ⟨b', hb', x⟩
        · rcases mem_foldl_addNew h with h | h
          · exact .inl h
          · exact .inr ⟨b, by simp, rs1, h1, h⟩
        · exact .inr ⟨b', List.mem_cons_of_mem _ hb', x⟩
      · rcases List.mem_cons.1 hb' with e' | e'
        · subst e'
          refine ⟨_, h1, .inr ⟨rs1, rfl, fun r hr => ?_⟩⟩
          obtain ⟨r', hr', hs'⟩ := foldl_addNew_covers (acc := acc) hr
          exact ⟨r', ha r' hr', hs'⟩
        · exact hc b' e'
    | .iter _ 0 =>
      obtain ⟨rs, e, ha, hs, hc⟩ := ih h2
      refine ⟨rs, e, ha, fun r hr => ?_, fun b' hb' => ?_⟩
      · rcases hs r hr with h | ⟨b', hb', x⟩
        · exact .inl h
        · exact .inr ⟨b', List.mem_cons_of_mem _ hb', x⟩
      · rcases List.mem_cons.1 hb' with e' | e'
        · subst e'; exact ⟨_, h1, .inl ⟨_, rfl⟩⟩
        · exact hc b' e'
    | .iter _ (_ + 1) => simp at h2

theorem solve_iff_chain {mods : List (Module W)} (hm : PureMods mods) {n : Nat} {as : List Value} {b : Binding}
    {w w' : W} {bs : List Binding} (h : (solverAt mods n).solve (.list as) b w = .ok w' (.rows bs)) :
    (∀ b' ∈ bs, Chain mods n w as b b') ∧ (∀ b', Chain mods n w as b b' → ∃ b'' ∈ bs, SameDict b'' b') := by
  cases n with
  | zero => simp [solverAt] at h
  | succ n =>
    induction as generalizing b w w' bs with
    | nil =>
      simp only [solverAt, solveValue, solveAtoms, M.pure_eq_ok, SolOut.rows.injEq] at h
      rw [← h.2]
      refine ⟨?_, ?_⟩
      · intro b' hb'
        simp only [List.mem_singleton] at hb'
        subst hb'; exact .nil _
      · intro b' hb'
        cases hb'
        exact ⟨b, by simp, SameDict.refl _⟩
    | cons a rest ih =>
      cases rest with
      | nil =>
        have hw := (solverAt_pure hm (n + 1)).solve _ _ _ _ _ h
        subst hw
        refine ⟨fun b' hb' => .cons _ _ _ _ _ _ h hb' (.nil _), ?_⟩
        intro b' hb'
        cases hb' with
        | cons _ _ _ b1 _ bs1 h1 h2 h3 =>
          cases h3
          rw [h] at h1
          simp only [Res.ok.injEq, SolOut.rows.injEq, true_and] at h1
          exact ⟨b', h1 ▸ h2, SameDict.refl _⟩
      | cons a2 rest =>
        simp only [solverAt, solveValue, solveAtoms, M.bind_eq_ok] at h
        obtain ⟨w1, o, h1, h2⟩ := h
        have hpa := solverAt_pure hm n
        have hw1 : w1 = w := solveSingle_pure hpa hm a b _ _ _ h1
        subst hw1
        have h1' : (solverAt mods (n + 1)).solve (.list [a]) b w1 = .ok w1 o := h1
        match o with
        | .rows bs1 =>
          obtain ⟨rs, e, -, hs, hc⟩ := collect_ok (solveAtoms_pure hpa hm _) h2
          simp only [SolOut.rows.injEq] at e
          subst e
          refine ⟨fun b' hb' => ?_, fun b' hb' => ?_⟩
          · rcases hs b' hb' with h | ⟨b1, hb1, rs1, hf, hr⟩
            · simp at h
            · exact .cons _ _ _ _ _ _ h1' hb1 ((ih hf).1 b' hr)
          · cases hb' with
            | cons _ _ _ b1 _ bs1' h3 h4 h5 =>
              rw [h1'] at h3
              simp only [Res.ok.injEq, SolOut.rows.injEq, true_and] at h3
              subst h3
              obtain ⟨o, ho, hcase⟩ := hc b1 h4
              rcases hcase with ⟨_, rfl⟩ | ⟨rs1, rfl, hcov⟩
              · -- the rest returned an empty iterator: no chain through it
                exfalso
                exact chain_iter_false (n := n) ho h5
              · obtain ⟨b2, hb2, hs2⟩ := (ih ho).2 b' h5
                obtain ⟨b3, hb3, hs3⟩ := hcov b2 hb2
                exact ⟨b3, hb3, hs3.trans hs2⟩
        | .iter _ 0 =>
          simp only [M.pure_eq_ok, SolOut.rows.injEq] at h2
          rw [← h2.2]
          refine ⟨by simp, fun b' hb' => ?_⟩
          cases hb' with
          | cons _ _ _ b1 _ bs1' h3 h4 h5 =>
            rw [h1'] at h3
            simp at h3
        | .iter _ (_ + 1) => simp at h2
where
  /-- If solving a list of atoms yields an iterator, there is no chain. -/
  chain_iter_false {mods : List (Module W)} {n : Nat} {as : List Value} {b b' : Binding} {w : W}
      {s : List Value} {k : Nat} (h : solveAtoms (solverAt mods n) mods as b w = .ok w (.iter s k)) (hc : Chain mods (n + 1) w as b b') : False := by
    cases hc with
    | nil => simp [solveAtoms] at h
    | cons a rest _ b1 _ bs h1 h2 h3 =>
      have h1 : solveSingle (solverAt mods n) mods a b w = .ok w (.rows bs) := h1
      cases rest with
      | nil =>
        have h : solveSingle (solverAt mods n) mods a b w = .ok w (.iter s k) := h
        rw [h1] at h
        simp at h
      | cons a2 rest =>
        simp only [solveAtoms] at h
        rw [M.bind_ok h1] at h
        obtain ⟨rs, e, -⟩ := collect_mem h
        simp at e

/-- **C03.** For side-effect free modules, a conjunction `A ++ B` returns exactly the bindings reached by first solving `A`
and then solving `B` from there (compared as Python dictionaries); the empty conjunction returns the given binding. -/
theorem C03_conjunction_composes (mods : List (Module W)) (hm : PureMods mods) (n : Nat) (A B : List Value) (b : Binding)
    (w w' : W) (bs : List Binding) (h : (solverAt mods n).solve (.list (A ++ B)) b w = .ok w' (.rows bs)) :
    w' = w ∧
    (∀ b' ∈ bs, ∃ b1, Chain mods n w A b b1 ∧ Chain mods n w B b1 b') ∧
    (∀ b1 b', Chain mods n w A b b1 → Chain mods n w B b1 b' → ∃ b'' ∈ bs, ∀ x, b''.get x = b'.get x) := by
  obtain ⟨h1, h2⟩ := solve_iff_chain hm h
  exact ⟨(solverAt_pure hm n).solve _ _ _ _ _ h, fun b' hb' => Chain.append.1 (h1 b' hb'),
    fun b1 b' hA hB => h2 b' (Chain.append.2 ⟨b1, hA, hB⟩)⟩

/-- **C03** (empty conjunction): exactly the given binding, whatever the model and the world. -/
theorem C03_empty_conjunction (mods : List (Module W)) (n : Nat) (b : Binding) (w : W) :
    (solverAt mods (n + 1)).solve (.list []) b w = .ok w (.rows [b]) := rfl

example : PureMods Ex.mods := tableModule_pure [Ex.db]

example : ∃ b1, Chain Ex.mods 1 () [.tuple [.str "parent", .var "X", .var "Y"]] [("X", .str "ann")] b1 ∧
    Chain Ex.mods 1 () [.tuple [.str "parent", .var "Y", .var "Z"]] b1
      [("X", .str "ann"), ("Y", .str "bob"), ("Z", .str "dot")] :=
  (C03_conjunction_composes Ex.mods (tableModule_pure [Ex.db]) 1 [_] [_] _ () () _ Ex.grand_run).2.1 _ (by simp)

end Verif
