import Verif.SolverLemmas
import Verif.Tables

/-!
# Properties of the solver: C01, C02, C03, C04, C12, C19
-/

namespace Verif

variable {W : Type}

/-! ## A small concrete model used by the examples -/

namespace Ex
/-- Parent facts. -/
def db : Dict (List (List Value)) :=
  [("parent", [[.str "ann", .str "bob"], [.str "bob", .str "cid"], [.str "bob", .str "dot"]]),
   ("age", [[.str "ann", .num 70], [.str "bob", .num 40]])]
/-- A model with these facts. -/
def mods : List (Module Unit) := [tableModule Unit db]
/-- `parent(X, Y), parent(Y, Z)`. -/
def grand : Value := .list
  [.tuple [.str "parent", .var "X", .var "Y"], .tuple [.str "parent", .var "Y", .var "Z"]]
theorem grand_run : (solverAt mods 1).solve grand [("X", .str "ann")] () =
    .ok () (.rows [[("X", .str "ann"), ("Y", .str "bob"), ("Z", .str "cid")],
      [("X", .str "ann"), ("Y", .str "bob"), ("Z", .str "dot")]]) := by
  decide +kernel
end Ex

/-! ## C01 -/

/-- A solver whose results extend the binding it was given. -/
def ExtendsApi (api : SolverApi W) : Prop :=
  ∀ v b w w' bs, api.solve v b w = .ok w' (.rows bs) → ∀ b' ∈ bs, Extends b b'

theorem solveDisjuncts_extends {api : SolverApi W} (hapi : ExtendsApi api) {b : Binding} {ds : List Value} {w w' : W}
    {bs : List Binding} (h : solveDisjuncts api b ds w = .ok w' (.rows bs)) : ∀ b' ∈ bs, Extends b b' := by
  induction ds generalizing w with
  | nil =>
    simp only [solveDisjuncts, M.pure_eq_ok, SolOut.rows.injEq] at h
    simp [← h.2]
  | cons d ds ih =>
    simp only [solveDisjuncts, M.bind_eq_ok] at h
    obtain ⟨w1, o, h1, h2⟩ := h
    split at h2
    · simp only [M.pure_eq_ok] at h2
      obtain ⟨rfl, rfl⟩ := h2
      exact hapi _ _ _ _ _ h1
    · exact ih h2

theorem solveSingle_extends {api : SolverApi W} (hapi : ExtendsApi api) {mods : List (Module W)} {a : Value}
    {b : Binding} {w w' : W} {bs : List Binding} (h : solveSingle api mods a b w = .ok w' (.rows bs)) :
    ∀ b' ∈ bs, Extends b b' := by
  obtain ⟨p, args, -, h⟩ := solveSingle_ok_isAtom h
  unfold solveSingle.go at h
  split at h
  · split at h
    · exact solveDisjuncts_extends hapi h
    · exact solveDisjuncts_extends hapi h
    · simp at h
    · simp at h
  · rw [M.bind_eq_ok] at h
    obtain ⟨w1, q, -, h⟩ := h
    obtain ⟨-, ⟨_, n, -, e⟩ | ⟨rows, bs', -, e, hc⟩⟩ := resultsOf_ok h
    · simp at e
    · simp only [SolOut.rows.injEq] at e
      subst e
      intro b' hb'
      obtain ⟨row, -, hr⟩ := (createResults_mem hc).1 hb'
      exact extendRow_extends hr (Extends.refl b)

theorem solveAtoms_extends {api : SolverApi W} (hapi : ExtendsApi api) {mods : List (Module W)} {as : List Value}
    {b : Binding} {w w' : W} {bs : List Binding} (h : solveAtoms api mods as b w = .ok w' (.rows bs)) :
    ∀ b' ∈ bs, Extends b b' := by
  induction as generalizing b w w' bs with
  | nil =>
    simp only [solveAtoms, M.pure_eq_ok, SolOut.rows.injEq] at h
    rw [← h.2]; simp [Extends.refl]
  | cons a rest ih =>
    cases rest with
    | nil => exact solveSingle_extends hapi h
    | cons a2 rest =>
      simp only [solveAtoms, M.bind_eq_ok] at h
      obtain ⟨w1, o, h1, h2⟩ := h
      match o with
      | .rows bs1 =>
        obtain ⟨rs, e, hrs⟩ := collect_mem h2
        simp only [SolOut.rows.injEq] at e
        subst e
        intro b' hb'
        rcases hrs b' hb' with h | ⟨b1, hb1, w2, w3, rs1, hf, hr⟩
        · simp at h
        · exact (solveSingle_extends hapi h1 b1 hb1).trans (ih hf b' hr)
      | .iter _ 0 =>
        simp only [M.pure_eq_ok, SolOut.rows.injEq] at h2
        simp [← h2.2]
      | .iter _ (_ + 1) => simp at h2

theorem solverAt_extendsApi (mods : List (Module W)) (n : Nat) : ExtendsApi (solverAt mods n) := by
  induction n with
  | zero => intro v b w w' bs h; simp [solverAt] at h
  | succ n ih =>
    intro v b w w' bs h
    simp only [solverAt, solveValue] at h
    split at h
    · exact solveAtoms_extends ih h
    · simp at h

/-- **C01.** Every binding returned by `solve` contains the caller's binding unchanged, whatever the modules do. -/
theorem C01_solve_extends_binding (mods : List (Module W)) (n : Nat) (atoms : Value) (b : Binding) (w w' : W)
    (bs : List Binding) (h : (solverAt mods n).solve atoms b w = .ok w' (.rows bs)) :
    ∀ b' ∈ bs, ∀ x v, b.get x = some v → b'.get x = some v :=
  solverAt_extendsApi mods n atoms b w w' bs h

example : ∀ b' ∈ [[("X", Value.str "ann"), ("Y", .str "bob"), ("Z", .str "cid")],
      [("X", .str "ann"), ("Y", .str "bob"), ("Z", .str "dot")]], Dict.get b' "X" = some (Value.str "ann") :=
  fun b' hb' => C01_solve_extends_binding Ex.mods 1 Ex.grand _ _ _ _ Ex.grand_run b' hb' "X" (.str "ann") rfl

/-! ## C02 -/

theorem solveSingle_binds {api : SolverApi W} {mods : List (Module W)} {a : Value} {p : String} {args : List Value}
    (ha : IsAtom a p args) (hp : p ≠ "$disjunction")
    {b : Binding} {w w' : W} {bs : List Binding} (h : solveSingle api mods a b w = .ok w' (.rows bs))
    {x : String} (hx : Value.var x ∈ args) : ∀ b' ∈ bs, b'.has x = true := by
  obtain ⟨p', args', ha', h⟩ := solveSingle_ok_isAtom h
  have e : p' = p ∧ args' = args := by
    rcases ha with rfl | rfl <;> rcases ha' with e | e <;> simp_all
  obtain ⟨rfl, rfl⟩ := e
  simp only [solveSingle.go, hp, if_false, M.bind_eq_ok] at h
  obtain ⟨w1, q, -, h⟩ := h
  obtain ⟨-, ⟨_, n, -, e⟩ | ⟨rows, bs', -, e, hc⟩⟩ := resultsOf_ok h
  · simp at e
  · simp only [SolOut.rows.injEq] at e
    subst e
    intro b' hb'
    obtain ⟨row, -, hr⟩ := (createResults_mem hc).1 hb'
    exact extendRow_binds hr (Extends.refl b) hx

theorem solveAtoms_binds {api : SolverApi W} (hapi : ExtendsApi api) {mods : List (Module W)} {as : List Value}
    {a : Value} {p : String} {args : List Value} (haa : a ∈ as) (ha : IsAtom a p args) (hp : p ≠ "$disjunction")
    {b : Binding} {w w' : W} {bs : List Binding} (h : solveAtoms api mods as b w = .ok w' (.rows bs))
    {x : String} (hx : Value.var x ∈ args) : ∀ b' ∈ bs, b'.has x = true := by
  induction as generalizing b w w' bs with
  | nil => simp at haa
  | cons a1 rest ih =>
    cases rest with
    | nil =>
      simp only [List.mem_singleton] at haa
      subst haa
      exact solveSingle_binds ha hp h hx
    | cons a2 rest =>
      simp only [solveAtoms, M.bind_eq_ok] at h
      obtain ⟨w1, o, h1, h2⟩ := h
      match o with
      | .rows bs1 =>
        obtain ⟨rs, e, hrs⟩ := collect_mem h2
        simp only [SolOut.rows.injEq] at e
        subst e
        intro b' hb'
        rcases hrs b' hb' with h | ⟨b1, hb1, w2, w3, rs1, hf, hr⟩
        · simp at h
        · rcases List.mem_cons.1 haa with e | e
          · subst e
            exact (solveAtoms_extends hapi hf b' hr).has (solveSingle_binds ha hp h1 hx b1 hb1)
          · exact ih e hf b' hr
      | .iter _ 0 =>
        simp only [M.pure_eq_ok, SolOut.rows.injEq] at h2
        simp [← h2.2]
      | .iter _ (_ + 1) => simp at h2

/-- **C02.** Every variable that is a direct argument of an atom other than a disjunction is bound in every result. -/
theorem C02_solve_binds_variables (mods : List (Module W)) (n : Nat) (as : List Value) (b : Binding) (w w' : W)
    (bs : List Binding) (h : (solverAt mods n).solve (.list as) b w = .ok w' (.rows bs))
    (p : String) (args : List Value) (ha : .tuple (.str p :: args) ∈ as) (hp : p ≠ "$disjunction")
    (x : String) (hx : .var x ∈ args) : ∀ b' ∈ bs, ∃ v, b'.get x = some v := by
  cases n with
  | zero => simp [solverAt] at h
  | succ n =>
    intro b' hb'
    rw [← Dict.has_iff]
    exact solveAtoms_binds (solverAt_extendsApi mods n) ha (.inl rfl) hp h hx b' hb'

example : ∀ b' ∈ [[("X", Value.str "ann"), ("Y", .str "bob"), ("Z", .str "cid")],
      [("X", .str "ann"), ("Y", .str "bob"), ("Z", .str "dot")]], ∃ v, Dict.get b' "Z" = some v :=
  C02_solve_binds_variables Ex.mods 1 _ _ _ _ _ Ex.grand_run "parent" [.var "Y", .var "Z"]
    (by simp) (by decide) "Z" (by simp)

/-! ## C04 -/

/-- **C04** (partial: conjunctions of two or more atoms; for a single atom the claim is false, see
`C04_single_atom_duplicates`). No binding is returned twice. -/
theorem C04_no_duplicates_partial (mods : List (Module W)) (n : Nat) (as : List Value) (b : Binding) (w w' : W)
    (bs : List Binding) (h : (solverAt mods n).solve (.list as) b w = .ok w' (.rows bs)) (hlen : as.length ≠ 1) :
    bs.Pairwise (fun b1 b2 => ¬ ∀ x, b1.get x = b2.get x) := by
  cases n with
  | zero => simp [solverAt] at h
  | succ n =>
    simp only [solverAt, solveValue] at h
    match as, hlen with
    | [], _ =>
      simp only [solveAtoms, M.pure_eq_ok, SolOut.rows.injEq] at h
      rw [← h.2]; simp
    | a :: a2 :: rest, _ =>
      simp only [solveAtoms, M.bind_eq_ok] at h
      obtain ⟨w1, o, h1, h2⟩ := h
      match o with
      | .rows bs1 => exact collect_noDup h2 List.Pairwise.nil
      | .iter _ 0 =>
        simp only [M.pure_eq_ok, SolOut.rows.injEq] at h2
        rw [← h2.2]; exact List.Pairwise.nil
      | .iter _ (_ + 1) => simp at h2

example : [[("X", Value.str "ann"), ("Y", .str "bob"), ("Z", .str "cid")],
      [("X", .str "ann"), ("Y", .str "bob"), ("Z", .str "dot")]].Pairwise
        (fun b1 b2 => ¬ ∀ x, Dict.get b1 x = Dict.get b2 x) :=
  C04_no_duplicates_partial Ex.mods 1 _ _ _ _ _ Ex.grand_run (by decide)

/-- A relation that does not look at its input. -/
def Ex.blind : Relation Unit where
  predicate := "blind"
  query := fun _ _ => pure (.rows [[.num 1], [.num 2]])

/-- **C04, negation of the full claim.** A single atom whose variable is bound already can give the same binding twice:
the rows are different but the row value of a bound variable is ignored. -/
theorem C04_single_atom_duplicates :
    ∃ (mods : List (Module Unit)) (as : List Value) (b b1 b2 : Binding),
      (solverAt mods 1).solve (.list as) b () = .ok () (.rows [b1, b2]) ∧ ∀ x, b1.get x = b2.get x :=
  ⟨[⟨fun _ p => if p = "blind" then some Ex.blind else none⟩], [.tuple [.str "blind", .var "X"]], [("X", .num 7)],
    [("X", .num 7)], [("X", .num 7)], by decide +kernel, fun _ => rfl⟩

/-! ## C12 -/

/-- The alternatives `ds` all ran without answers, one after the other, leading from world `w` to `w'`. -/
inductive NoAnswers (mods : List (Module W)) (n : Nat) (b : Binding) : List Value → W → W → Prop
  | nil (w) : NoAnswers mods n b [] w w
  | cons (d ds w w1 w2 out) : (solverAt mods n).solve d b w = .ok w1 out → out.len = 0 →
      NoAnswers mods n b ds w1 w2 → NoAnswers mods n b (d :: ds) w w2

theorem solveDisjuncts_iff (mods : List (Module W)) (n : Nat) (b : Binding) (ds : List Value) (w w' : W) (out : SolOut) :
    solveDisjuncts (solverAt mods n) b ds w = .ok w' out ↔
      (out = .rows [] ∧ NoAnswers mods n b ds w w') ∨
      ∃ pre d post w1, ds = pre ++ d :: post ∧ NoAnswers mods n b pre w w1 ∧
        (solverAt mods n).solve d b w1 = .ok w' out ∧ 0 < out.len := by
  induction ds generalizing w with
  | nil =>
    simp only [solveDisjuncts, M.pure_eq_ok]
    constructor
    · rintro ⟨rfl, rfl⟩; exact .inl ⟨rfl, .nil _⟩
    · rintro (⟨rfl, h⟩ | ⟨pre, d, post, w1, e, -⟩)
      · cases h; exact ⟨rfl, rfl⟩
      · simp at e
  | cons d ds ih =>
    simp only [solveDisjuncts, M.bind_eq_ok]
    constructor
    · rintro ⟨w1, o, h1, h2⟩
      split at h2
      · rename_i hl
        simp only [M.pure_eq_ok] at h2
        obtain ⟨rfl, rfl⟩ := h2
        exact .inr ⟨[], d, ds, w, rfl, .nil _, h1, hl⟩
      · rename_i hl
        have hl0 : o.len = 0 := by omega
        rcases (ih w1).1 h2 with ⟨rfl, h⟩ | ⟨pre, d', post, w2, rfl, hpre, hd, hlen⟩
        · exact .inl ⟨rfl, .cons _ _ _ _ _ _ h1 hl0 h⟩
        · exact .inr ⟨d :: pre, d', post, w2, rfl, .cons _ _ _ _ _ _ h1 hl0 hpre, hd, hlen⟩
    · rintro (⟨rfl, h⟩ | ⟨pre, d', post, w1, e, hpre, hd, hlen⟩)
      · cases h with
        | cons _ _ _ w1 _ o h1 hl h =>
          refine ⟨w1, o, h1, ?_⟩
          simp only [hl, Nat.lt_irrefl, if_false, gt_iff_lt]
          exact (ih w1).2 (.inl ⟨rfl, h⟩)
      · cases hpre with
        | nil =>
          simp only [List.nil_append, List.cons.injEq] at e
          obtain ⟨rfl, rfl⟩ := e
          exact ⟨w', out, hd, by simp [hlen]⟩
        | cons d0 ds0 _ w2 _ o h1 hl h =>
          simp only [List.cons_append, List.cons.injEq] at e
          obtain ⟨rfl, rfl⟩ := e
          refine ⟨w2, o, h1, ?_⟩
          simp only [hl, Nat.lt_irrefl, if_false, gt_iff_lt]
          exact (ih w2).2 (.inr ⟨ds0, d', post, w1, rfl, h, hd, hlen⟩)

/-- **C12.** A disjunction returns `out` iff either no alternative has answers and `out` is empty, or the first
alternative with answers returns `out` (worlds are threaded through the alternatives tried). -/
theorem C12_disjunction_first_success (mods : List (Module W)) (n : Nat) (b : Binding) (ds : List Value) (w w' : W)
    (out : SolOut) :
    (solverAt mods (n + 1)).solve (.list [.tuple [.str "$disjunction", .list ds]]) b w = .ok w' out ↔
      (out = .rows [] ∧ NoAnswers mods n b ds w w') ∨
      ∃ pre d post w1, ds = pre ++ d :: post ∧ NoAnswers mods n b pre w w1 ∧
        (solverAt mods n).solve d b w1 = .ok w' out ∧ 0 < out.len :=
  solveDisjuncts_iff mods n b ds w w' out

example : (solverAt Ex.mods 2).solve (.list [.tuple [.str "$disjunction", .list
      [.list [.tuple [.str "parent", .str "zoe", .var "Y"]], .list [.tuple [.str "parent", .str "ann", .var "Y"]],
       .list [.tuple [.str "parent", .str "bob", .var "Y"]]]]]) [] () = .ok () (.rows [[("Y", .str "bob")]]) :=
  (C12_disjunction_first_success Ex.mods 1 [] _ () () _).2 (.inr
    ⟨[.list [.tuple [.str "parent", .str "zoe", .var "Y"]]], .list [.tuple [.str "parent", .str "ann", .var "Y"]],
      [.list [.tuple [.str "parent", .str "bob", .var "Y"]]], (), rfl,
      .cons _ _ _ _ _ (.rows []) (by decide +kernel) rfl (.nil _), by decide +kernel, by decide⟩)

/-! ## C19 -/

/-- **C19** (solving). An atom whose predicate no module defines raises, also as the first atom of a longer conjunction. -/
theorem C19_unknown_predicate_raises (mods : List (Module W)) (n : Nat) (p : String) (args : List Value)
    (rest : List Value) (b : Binding) (w : W) (hp : p ≠ "$disjunction") (h : ∀ m ∈ mods, m.relations w p = none) :
    ∃ msg, (solverAt mods (n + 1)).solve (.list (.tuple (.str p :: args) :: rest)) b w = .err w (.exception msg) := by
  have h0 : findRelations mods w p = [] := by
    simp only [findRelations, List.filterMap_eq_nil_iff]; exact h
  have h1 : solveSingle (solverAt mods n) mods (.tuple (.str p :: args)) b w =
      .err w (.exception "No relation available in the model") := by
    rw [solveSingle_tuple]
    simp only [solveSingle.go, hp, if_false]
    apply M.bind_err
    simp only [findRelationValues]
    rw [M.bind_ok (M.gets_run _ w), h0]
    rfl
  refine ⟨"No relation available in the model", ?_⟩
  · simp only [solverAt, solveValue]
    cases rest with
    | nil => exact h1
    | cons a2 rest => simp only [solveAtoms]; exact M.bind_err h1

/-- **C19** (storing). -/
theorem C19_unknown_predicate_write_raises (mods : List (Module W)) (n : Nat) (p : String) (args : List Value) (w : W)
    (h : ∀ m ∈ mods, m.relations w p = none) :
    ∃ msg, (solverAt mods (n + 1)).writeAtom (.tuple (.str p :: args)) w = .err w (.exception msg) := by
  have h0 : findRelations mods w p = [] := by
    simp only [findRelations, List.filterMap_eq_nil_iff]; exact h
  refine ⟨"No relation available in the model", ?_⟩
  · simp only [solverAt, writeAtom, writeAtom.go]
    rw [M.bind_ok (M.gets_run _ w), h0]
    rfl

/-- **C19** (anywhere in a conjunction). If an atom with an unknown predicate occurs anywhere in the query and the call
returns, then it returned no answer and it did so because an earlier part of the query had none: dropping the unknown
atom and everything behind it gives no answer either. -/
theorem C19_unknown_predicate_no_answer (mods : List (Module W)) (n : Nat) (p : String) (args : List Value)
    (pre post : List Value) (b : Binding) (w w' : W) (hp : p ≠ "$disjunction")
    (h : ∀ m ∈ mods, ∀ w, m.relations w p = none) (bs : List Binding)
    (hs : (solverAt mods n).solve (.list (pre ++ .tuple (.str p :: args) :: post)) b w = .ok w' (.rows bs)) :
    bs = [] ∧ pre ≠ [] := by
  cases n with
  | zero => simp [solverAt] at hs
  | succ n =>
    induction pre generalizing b w w' bs with
    | nil =>
      obtain ⟨msg, e⟩ := C19_unknown_predicate_raises mods n p args post b w hp (fun m hm => h m hm w)
      rw [List.nil_append, e] at hs
      simp at hs
    | cons a pre ih =>
      refine ⟨?_, by simp⟩
      have hne : ∃ a2 rest, pre ++ .tuple (.str p :: args) :: post = a2 :: rest := by
        cases pre with
        | nil => exact ⟨_, _, rfl⟩
        | cons x xs => exact ⟨_, _, rfl⟩
      obtain ⟨a2, rest, e⟩ := hne
      rw [List.cons_append, e] at hs
      rw [e] at ih
      simp only [solverAt, solveValue, solveAtoms, M.bind_eq_ok] at hs
      obtain ⟨w1, o, h1, h2⟩ := hs
      match o with
      | .rows bs1 =>
        obtain ⟨rs, e, hrs⟩ := collect_mem h2
        simp only [SolOut.rows.injEq] at e
        subst e
        rcases List.eq_nil_or_concat bs with e | ⟨l, r, e⟩
        · exact e
        · rcases hrs r (by simp [e]) with h | ⟨b1, hb1, w2, w3, rs1, hf, hr⟩
          · simp at h
          · have := (ih b1 w2 w3 rs1 hf).1
            subst this
            simp at hr
      | .iter _ 0 =>
        simp only [M.pure_eq_ok, SolOut.rows.injEq] at h2
        exact h2.2.symm
      | .iter _ (_ + 1) => simp at h2

example : (solverAt Ex.mods 1).solve (.list [.tuple [.str "parent", .str "zoe", .var "X"],
    .tuple [.str "nonsense", .var "X"]]) [] () = .ok () (.rows []) := by decide +kernel

example : ∀ m ∈ Ex.mods, ∀ w, m.relations w "nonsense" = none := by
  simp only [Ex.mods, List.mem_singleton, forall_eq]
  intro w; rfl

end Verif
