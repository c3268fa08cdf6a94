import Verif.SolverLemmas

/-!
# More depth never changes an outcome

Flat order: `oof` is below everything. A relation is monotone if giving it a more defined solver makes its outcome more
defined; every Python function is (it cannot observe that a call has not returned yet).
-/

namespace Verif

variable {W α β : Type}

/-- `r` is `oof` or equal to `r'`. -/
def Res.Le (r r' : Res W α) : Prop := r = .oof ∨ r = r'

theorem Res.Le.rfl {r : Res W α} : Res.Le r r := .inr (Eq.refl _)

/-- Pointwise order on computations. -/
def M.Le (x y : M W α) : Prop := ∀ w, Res.Le (x w) (y w)

theorem M.Le.refl (x : M W α) : M.Le x x := fun _ => .inr rfl

theorem M.Le.bind {x y : M W α} {f g : α → M W β} (h : M.Le x y) (hf : ∀ a, M.Le (f a) (g a)) :
    M.Le (x >>= f) (y >>= g) := by
  intro w
  rw [M.bind_run, M.bind_run]
  rcases h w with e | e
  · rw [e]; exact .inl rfl
  · rw [e]
    cases y w with
    | ok w' a => exact hf a w'
    | err => exact .inr rfl
    | oof => exact .inr rfl

/-- Order on solvers. -/
structure SolverApi.Le (a b : SolverApi W) : Prop where
  solve : ∀ v bd, M.Le (a.solve v bd) (b.solve v bd)
  writeAtom : ∀ v, M.Le (a.writeAtom v) (b.writeAtom v)

/-- The relation is monotone in the solver it calls. -/
structure Relation.Mono (r : Relation W) : Prop where
  query : ∀ db p c args bd a a', SolverApi.Le a a' → M.Le (r.query db ⟨p, c, args, bd, a⟩) (r.query db ⟨p, c, args, bd, a'⟩)
  write : ∀ f, r.write = some f → ∀ db p c args bd a a', SolverApi.Le a a' → M.Le (f db ⟨p, c, args, bd, a⟩) (f db ⟨p, c, args, bd, a'⟩)

/-- All relations of all modules are monotone. -/
def MonoMods (mods : List (Module W)) : Prop :=
  ∀ m ∈ mods, ∀ w p r, m.relations w p = some r → r.Mono

theorem findRelations_mono {mods : List (Module W)} (h : MonoMods mods) {w : W} {p : String} :
    ∀ r ∈ findRelations mods w p, r.Mono := by
  intro r hr
  simp only [findRelations, List.mem_filterMap] at hr
  obtain ⟨m, hm, e⟩ := hr
  exact h m hm w p r e

theorem queryRelations_mono {a a' : SolverApi W} (h : SolverApi.Le a a') (mult : Bool) (args : List Value) (b : Binding)
    (db : List Value) {rels : List (Relation W)} (hr : ∀ r ∈ rels, r.Mono) (acc : List (List Value)) :
    M.Le (queryRelations a mult args b db rels acc) (queryRelations a' mult args b db rels acc) := by
  induction rels generalizing acc with
  | nil => exact M.Le.refl _
  | cons r rs ih =>
    simp only [queryRelations]
    refine M.Le.bind ((hr r (by simp)).query _ _ _ _ _ _ _ h) ?_
    intro out
    cases out with
    | iter n => exact M.Le.refl _
    | rows rows => exact ih (fun r hr' => hr r (List.mem_cons_of_mem _ hr')) _

theorem findRelationValues_mono {a a' : SolverApi W} (h : SolverApi.Le a a') {mods : List (Module W)}
    (hm : MonoMods mods) (p : String) (args : List Value) (b : Binding) :
    M.Le (findRelationValues a mods p args b) (findRelationValues a' mods p args b) := by
  intro w
  simp only [findRelationValues]
  rw [M.bind_ok (M.gets_run _ w), M.bind_ok (M.gets_run _ w)]
  have := findRelations_mono hm (w := w) (p := p)
  cases hf : findRelations mods w p with
  | nil => exact .inr rfl
  | cons r rs => rw [hf] at this; exact queryRelations_mono h _ _ _ _ this _ w

theorem solveDisjuncts_mono {a a' : SolverApi W} (h : SolverApi.Le a a') (b : Binding) (ds : List Value) :
    M.Le (solveDisjuncts a b ds) (solveDisjuncts a' b ds) := by
  induction ds with
  | nil => exact M.Le.refl _
  | cons d ds ih =>
    simp only [solveDisjuncts]
    refine M.Le.bind (h.solve _ _) ?_
    intro out
    split
    · exact M.Le.refl _
    · exact ih

theorem solveSingle_mono {a a' : SolverApi W} (h : SolverApi.Le a a') {mods : List (Module W)}
    (hm : MonoMods mods) (atom : Value) (b : Binding) :
    M.Le (solveSingle a mods atom b) (solveSingle a' mods atom b) := by
  have hgo : ∀ p args, M.Le (solveSingle.go a mods b p args) (solveSingle.go a' mods b p args) := by
    intro p args
    simp only [solveSingle.go]
    split
    · split
      · exact solveDisjuncts_mono h _ _
      · exact solveDisjuncts_mono h _ _
      · exact M.Le.refl _
      · exact M.Le.refl _
    · exact M.Le.bind (findRelationValues_mono h hm _ _ _) (fun _ => M.Le.refl _)
  unfold solveSingle
  split
  · exact hgo _ _
  · exact hgo _ _
  · exact M.Le.refl _
  · exact M.Le.refl _
  · exact M.Le.refl _

theorem collect_mono {f g : Binding → M W SolOut} (h : ∀ b, M.Le (f b) (g b)) (bs acc : List Binding) :
    M.Le (collect f bs acc) (collect g bs acc) := by
  induction bs generalizing acc with
  | nil => exact M.Le.refl _
  | cons b bs ih =>
    simp only [collect]
    refine M.Le.bind (h b) ?_
    intro out
    match out with
    | .rows rs => exact ih _
    | .iter _ 0 => exact ih _
    | .iter _ (_ + 1) => exact M.Le.refl _

theorem solveAtoms_mono {a a' : SolverApi W} (h : SolverApi.Le a a') {mods : List (Module W)}
    (hm : MonoMods mods) (as : List Value) (b : Binding) :
    M.Le (solveAtoms a mods as b) (solveAtoms a' mods as b) := by
  induction as generalizing b with
  | nil => exact M.Le.refl _
  | cons x rest ih =>
    cases rest with
    | nil => exact solveSingle_mono h hm x b
    | cons a2 rest =>
      simp only [solveAtoms]
      refine M.Le.bind (solveSingle_mono h hm x b) ?_
      intro out
      match out with
      | .rows rs => exact collect_mono ih _ _
      | .iter _ 0 => exact M.Le.refl _
      | .iter _ (_ + 1) => exact M.Le.refl _

theorem writeRelations_mono {a a' : SolverApi W} (h : SolverApi.Le a a') (args : List Value)
    {rels : List (Relation W)} (hr : ∀ r ∈ rels, r.Mono) :
    M.Le (writeRelations a args rels) (writeRelations a' args rels) := by
  induction rels with
  | nil => exact M.Le.refl _
  | cons r rs ih =>
    simp only [writeRelations]
    have ih := ih (fun r hr' => hr r (List.mem_cons_of_mem _ hr'))
    cases hw : r.write with
    | none => exact ih
    | some f => exact M.Le.bind ((hr r (by simp)).write f hw _ _ _ _ _ _ _ h) (fun _ => ih)

theorem writeAtom_mono {a a' : SolverApi W} (h : SolverApi.Le a a') {mods : List (Module W)}
    (hm : MonoMods mods) (atom : Value) : M.Le (writeAtom a mods atom) (writeAtom a' mods atom) := by
  have hgo : ∀ p args, M.Le (writeAtom.go a mods p args) (writeAtom.go a' mods p args) := by
    intro p args w
    simp only [writeAtom.go]
    rw [M.bind_ok (M.gets_run _ w), M.bind_ok (M.gets_run _ w)]
    have := findRelations_mono hm (w := w) (p := p)
    cases hf : findRelations mods w p with
    | nil => exact .inr rfl
    | cons r rs => rw [hf] at this; exact writeRelations_mono h _ this w
  unfold writeAtom
  split
  · exact hgo _ _
  · exact hgo _ _
  · exact M.Le.refl _
  · exact M.Le.refl _
  · exact M.Le.refl _

theorem solverAt_step {mods : List (Module W)} (hm : MonoMods mods) (n : Nat) :
    SolverApi.Le (solverAt mods n) (solverAt mods (n + 1)) := by
  induction n with
  | zero => exact ⟨fun _ _ _ => .inl rfl, fun _ _ => .inl rfl⟩
  | succ n ih =>
    constructor
    · intro v bd
      show M.Le (solveValue _ _ _ _) (solveValue _ _ _ _)
      unfold solveValue
      split
      · exact solveAtoms_mono ih hm _ _
      · exact M.Le.refl _
    · intro v
      exact writeAtom_mono ih hm v

theorem SolverApi.Le.trans {a b c : SolverApi W} (h1 : SolverApi.Le a b) (h2 : SolverApi.Le b c) : SolverApi.Le a c := by
  constructor
  · intro v bd w
    rcases h1.solve v bd w with e | e
    · exact .inl e
    · rw [e]; exact h2.solve v bd w
  · intro v w
    rcases h1.writeAtom v w with e | e
    · exact .inl e
    · rw [e]; exact h2.writeAtom v w

theorem solverAt_le {mods : List (Module W)} (hm : MonoMods mods) {n m : Nat} (h : n ≤ m) :
    SolverApi.Le (solverAt mods n) (solverAt mods m) := by
  induction h with
  | refl => exact ⟨fun _ _ => M.Le.refl _, fun _ => M.Le.refl _⟩
  | step _ ih => exact ih.trans (solverAt_step hm _)

end Verif
