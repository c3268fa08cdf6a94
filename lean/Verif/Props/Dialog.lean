import Verif.Inference
import Verif.DataSource
import Verif.SolverLemmas
import Verif.CoreLemmas

/-!
# C25: dialog contexts
-/

namespace Verif

variable {W : Type}

/-- The rows of the table of active contexts. -/
def contexts (l : Lens W SqlDb) (w : W) : Option (List (List Value)) := (l.get w).get "context"

/-- The context `v` is active. -/
def Active (l : Lens W SqlDb) (w : W) (v : Value) : Prop := ∃ rows, contexts l w = some rows ∧ [v] ∈ rows

theorem sqlDo_insert {l : Lens W SqlDb} {w : W} {rows : List (List Value)} (h : contexts l w = some rows) (v : Value) :
    ∃ w', sqlDo l (SqlDb.insert "context" [v]) w = .ok w' () ∧ contexts l w' = some (rows ++ [[v]]) ∧ ∃ s, w' = l.put s w := by
  refine ⟨l.put ((l.get w).set "context" (rows ++ [[v]])) w, ?_, ?_, _, rfl⟩
  · simp only [sqlDo, SqlDb.insert]; rw [show (l.get w).get "context" = some rows from h]
  · simp [contexts, l.get_put, Dict.get_set_self]

theorem sqlDo_delete {l : Lens W SqlDb} {w : W} {rows : List (List Value)} (h : contexts l w = some rows) (v : Value) :
    ∃ w', sqlDo l (SqlDb.delete "context" [v]) w = .ok w' () ∧
      contexts l w' = some (rows.filter fun r => !SqlDb.sqlEq [v] r) ∧ ∃ s, w' = l.put s w := by
  refine ⟨l.put ((l.get w).set "context" (rows.filter fun r => !SqlDb.sqlEq [v] r)) w, ?_, ?_, _, rfl⟩
  · simp only [sqlDo, SqlDb.delete]; rw [show (l.get w).get "context" = some rows from h]
  · simp [contexts, l.get_put, Dict.get_set_self]

/-- `context = [v]` for rows of one column. -/
theorem sqlEq_one {v u : Value} (hv : v ≠ .none) : SqlDb.sqlEq [v] [u] = decide (v = u) := by
  simp [SqlDb.sqlEq, hv]

/-- All rows of the table have one column. -/
def OneColumn (rows : List (List Value)) : Prop := ∀ r ∈ rows, ∃ v, r = [v]

/-- **C25** After `start_context` the context is active, and nothing else changes. -/
theorem C25_start (l : Lens W SqlDb) (v : Value) (ctx : Ctx W) {w : W} {rows : List (List Value)} (h : contexts l w = some rows) :
    ∃ w', startContext l [v] ctx w = .ok w' (.rows [[.none]]) ∧ (∀ u, Active l w' u ↔ Active l w u ∨ u = v) ∧
      ∃ s, w' = l.put s w := by
  obtain ⟨w', h1, h2, h3⟩ := sqlDo_insert h v
  refine ⟨w', ?_, fun u => ?_, h3⟩
  · unfold startContext
    simp only [nth, List.getElem?_cons_zero]
    rw [M.bind_ok (M.pure_run _ w), M.bind_ok h1]; rfl
  · simp [Active, h, h2]

/-- **C25** After `end_context` the context is not active, however often it was started, and nothing else changes. -/
theorem C25_end (l : Lens W SqlDb) {v : Value} (hv : v ≠ .none) (ctx : Ctx W) {w : W} {rows : List (List Value)}
    (h : contexts l w = some rows) :
    ∃ w', endContext l [v] ctx w = .ok w' (.rows [[.none]]) ∧ (∀ u, Active l w' u ↔ Active l w u ∧ u ≠ v) ∧
      ∃ s, w' = l.put s w := by
  obtain ⟨w', h1, h2, h3⟩ := sqlDo_delete h v
  refine ⟨w', ?_, fun u => ?_, h3⟩
  · unfold endContext
    simp only [nth, List.getElem?_cons_zero]
    rw [M.bind_ok (M.pure_run _ w), M.bind_ok h1]; rfl
  · have hne : v ≠ u ↔ u ≠ v := ⟨Ne.symm, Ne.symm⟩
    simp only [Active, h, h2, Option.some.injEq, exists_eq_left', List.mem_filter, sqlEq_one hv, Bool.not_eq_true',
      decide_eq_false_iff_not]
    exact and_congr_right fun _ => hne

example : ∃ w', endContext (Lens.id SqlDb) [.str "a"] ⟨"end_context", [], [], [], solverAt [] 0⟩
    [("context", [[.str "a"], [.str "b"], [.str "a"]])] = .ok w' (.rows [[.none]]) ∧ contexts (Lens.id SqlDb) w' = some [[.str "b"]] :=
  ⟨[("context", [[.str "b"]])], by decide +kernel, by decide +kernel⟩

/-- **C25** `with_context` on any solver and any body: the body starts with the context added to the active ones; it ends without
the context, and otherwise with the contexts with which the body ended; its result is always one row. -/
theorem C25_with_context (l : Lens W SqlDb) (v : Value) (body : Value) (ctx : Ctx W) {w : W}
    {rows : List (List Value)} (h : contexts l w = some rows) :
    ∃ w1, contexts l w1 = some (rows ++ [[v]]) ∧ (∃ s, w1 = l.put s w) ∧
      (∀ w2 out rows2, ctx.solver.solve body ctx.binding w1 = .ok w2 out → contexts l w2 = some rows2 →
        ∃ w', withContext l [v, body] ctx w = .ok w' (.rows [[.none, .none]]) ∧
          contexts l w' = some (rows2.filter fun r => !SqlDb.sqlEq [v] r) ∧ ∃ s, w' = l.put s w2) ∧
      (∀ w2 e, ctx.solver.solve body ctx.binding w1 = .err w2 e → withContext l [v, body] ctx w = .err w2 e) ∧
      (∀ w' out, withContext l [v, body] ctx w = .ok w' out → ∃ w2 o2, ctx.solver.solve body ctx.binding w1 = .ok w2 o2) := by
  obtain ⟨w1, h1, h2, hs⟩ := sqlDo_insert h v
  refine ⟨w1, h2, hs, fun w2 out rows2 hb hr => ?_, fun w2 e hb => ?_, fun w' out hr => ?_⟩
  · obtain ⟨w', h3, h4, h5⟩ := sqlDo_delete hr v
    refine ⟨w', ?_, h4, h5⟩
    unfold withContext
    simp only [nth, List.getElem?_cons_zero, List.getElem?_cons_succ]
    rw [M.bind_ok (M.pure_run _ w), M.bind_ok (M.pure_run _ w), M.bind_ok h1, M.bind_ok hb, M.bind_ok h3]; rfl
  · unfold withContext
    simp only [nth, List.getElem?_cons_zero, List.getElem?_cons_succ]
    rw [M.bind_ok (M.pure_run _ w), M.bind_ok (M.pure_run _ w), M.bind_ok h1, M.bind_err hb]
  · unfold withContext at hr
    simp only [nth, List.getElem?_cons_zero, List.getElem?_cons_succ] at hr
    rw [M.bind_ok (M.pure_run _ w), M.bind_ok (M.pure_run _ w), M.bind_ok h1] at hr
    obtain ⟨w2, o2, h3, _⟩ := M.bind_eq_ok.1 hr
    exact ⟨w2, o2, h3⟩

/-! ### Nested use through the solver -/

/-- A run that ends normally leaves the active contexts as they were, if they were among `act` at the start; it stays in the worlds of `J`. -/
def KeepsContexts (l : Lens W SqlDb) (J : W → Prop) (act : List Value) {α : Type} (m : M W α) : Prop :=
  ∀ w w' out rows, J w → contexts l w = some rows → (∀ r ∈ rows, ∃ v ∈ act, r = [v]) → m w = .ok w' out → J w' ∧ contexts l w' = some rows

/-- Queries that use `with_context` to any depth, never with a context that is already active; `act` are the contexts that may be
active, other atoms leave the contexts alone. -/
inductive Tidy (l : Lens W SqlDb) (J : W → Prop) (mods : List (Module W)) : List Value → Value → Prop
  | other (act a) (h : ∀ n b act', KeepsContexts l J act' (solveSingle (solverAt mods n) mods a b)) : Tidy l J mods act a
  | nest (act name as) (hn : .str name ∉ act) (h : ∀ a ∈ as, Tidy l J mods (.str name :: act) a) :
      Tidy l J mods act (.tuple [.str "with_context", .str name, .list as])

/-- In the worlds of `J` the model's only relation for `with_context` is that of the dialog context, and `J` does not depend on the contexts. -/
structure HasWithContext (l : Lens W SqlDb) (J : W → Prop) (mods : List (Module W)) : Prop where
  has : ∀ w, J w → ∃ r : Relation W, findRelations mods w "with_context" = [r] ∧ r.query = withContext l
  put : ∀ w s, J w → J (l.put s w)

theorem solveAtoms_keeps {l : Lens W SqlDb} {J : W → Prop} {act : List Value} {api : SolverApi W} {mods : List (Module W)} {as : List Value}
    (h : ∀ a ∈ as, ∀ b, KeepsContexts l J act (solveSingle api mods a b)) : ∀ b, KeepsContexts l J act (solveAtoms api mods as b) := by
  induction as with
  | nil =>
    intro b w w' out rows hj hw _ hr
    simp only [solveAtoms, M.pure_eq_ok] at hr
    rw [← hr.1]; exact ⟨hj, hw⟩
  | cons a as ih =>
    cases as with
    | nil => intro b; exact h a (by simp) b
    | cons a2 rest =>
      intro b w w' out rows hj hw hact hr
      have ih := ih fun a ha => h a (List.mem_cons_of_mem _ ha)
      simp only [solveAtoms] at hr
      obtain ⟨w1, o1, h1, h2⟩ := M.bind_eq_ok.1 hr
      obtain ⟨hj1, hw1⟩ := h a (by simp) b w w1 o1 rows hj hw hact h1
      have hcol : ∀ bs acc w1 w' out, J w1 → contexts l w1 = some rows →
          collect (solveAtoms api mods (a2 :: rest)) bs acc w1 = .ok w' out → J w' ∧ contexts l w' = some rows := by
        intro bs
        induction bs with
        | nil =>
          intro acc w1 w' out hj1 hw1 hr
          simp only [collect, M.pure_eq_ok] at hr
          rw [← hr.1]; exact ⟨hj1, hw1⟩
        | cons b' bs ihb =>
          intro acc w1 w' out hj1 hw1 hr
          simp only [collect] at hr
          obtain ⟨w2, o2, h3, h4⟩ := M.bind_eq_ok.1 hr
          obtain ⟨hj2, hw2⟩ := ih b' w1 w2 o2 rows hj1 hw1 hact h3
          cases o2 with
          | rows rs => exact ihb _ w2 w' out hj2 hw2 h4
          | iter _ k => cases k with
            | zero => exact ihb _ w2 w' out hj2 hw2 h4
            | succ k => simp [M.throw] at h4
      cases o1 with
      | rows bs => exact hcol bs [] w1 w' out hj1 hw1 h2
      | iter _ k => cases k with
        | zero => rw [M.pure_eq_ok] at h2; rw [← h2.1]; exact ⟨hj1, hw1⟩
        | succ k => simp [M.throw] at h2

theorem tidy_keeps {l : Lens W SqlDb} {J : W → Prop} {mods : List (Module W)} (hm : HasWithContext l J mods) {act : List Value} {a : Value}
    (h : Tidy l J mods act a) (n : Nat) (b : Binding) : KeepsContexts l J act (solveSingle (solverAt mods n) mods a b) := by
  induction h generalizing n b with
  | other act a h => exact h n b act
  | nest act name as hn h ih =>
    intro w w' out rows hj hw hact hr
    obtain ⟨r, hr1, hr2⟩ := hm.has w hj
    simp only [solveSingle, solveSingle.go, show ("with_context" : String) ≠ "$disjunction" by decide, if_false, findRelationValues] at hr
    rw [M.bind_run, M.bind_ok (M.gets_run _ w), hr1] at hr
    obtain ⟨w9, o9, h9, h9'⟩ := M.bind_eq_ok.1 hr
    have hw9 : w9 = w' := by
      rcases o9 with rs | k
      · exact (resultsOf_ok h9').1.symm
      · exact (resultsOf_ok h9').1.symm
    subst hw9
    simp only [queryRelations, hr2] at h9
    have hdb : dbValues [.str name, .list as] b = [.str name, .list as] := rfl
    rw [hdb] at h9
    obtain ⟨w8, o8, h8, h8'⟩ := M.bind_eq_ok.1 h9
    obtain ⟨w1, h1, ⟨s1, hs1⟩, h2, h3, h4⟩ := C25_with_context l (.str name) (.list as)
      ⟨r.predicate, r.columns, [.str name, .list as], b, solverAt mods n⟩ hw
    obtain ⟨w2, o2, hbody⟩ := h4 _ _ h8
    have hk : J w2 ∧ contexts l w2 = some (rows ++ [[.str name]]) := by
      cases n with
      | zero => simp [solverAt, M.oof] at hbody
      | succ n =>
        refine solveAtoms_keeps (fun a ha b => ih a ha n b) b w1 w2 o2 _ (hs1 ▸ hm.put _ _ hj) h1 ?_ hbody
        intro r hr
        rcases List.mem_append.1 hr with hr | hr
        · obtain ⟨v, hv, e⟩ := hact r hr; exact ⟨v, List.mem_cons_of_mem _ hv, e⟩
        · exact ⟨.str name, by simp, by simpa using hr⟩
    obtain ⟨w3, h5, h6, s2, hs2⟩ := h2 w2 o2 _ hbody hk.2
    rw [h8] at h5
    simp only [Res.ok.injEq] at h5
    obtain ⟨rfl, rfl⟩ := h5
    simp only [M.pure_eq_ok] at h8'
    rw [← h8'.1, h6, List.filter_append]
    refine ⟨hs2 ▸ hm.put _ _ hk.1, ?_⟩
    have e1 : rows.filter (fun r => !SqlDb.sqlEq [.str name] r) = rows := by
      apply List.filter_eq_self.2
      intro r hr
      obtain ⟨v, hv, rfl⟩ := hact r hr
      rw [sqlEq_one (by simp)]
      have : .str name ≠ v := by rintro rfl; exact hn hv
      simp [this]
    rw [e1]; simp [sqlEq_one]

/-- **C25** (partial: without the two hypotheses it is false, see below) A query that nests `with_context` to any depth, each time
with a context that is not active already, and that ends without an exception, leaves exactly the contexts active that were
active before. -/
theorem C25_nested_partial {l : Lens W SqlDb} {J : W → Prop} {mods : List (Module W)} (hm : HasWithContext l J mods) {act as : List Value}
    (h : ∀ a ∈ as, Tidy l J mods act a) (n : Nat) (b : Binding) {w w' : W} {out : SolOut} {rows : List (List Value)}
    (hj : J w) (hw : contexts l w = some rows) (hact : ∀ r ∈ rows, ∃ v ∈ act, r = [v])
    (hr : (solverAt mods n).solve (.list as) b w = .ok w' out) : J w' ∧ contexts l w' = some rows := by
  cases n with
  | zero => simp [solverAt, M.oof] at hr
  | succ n => exact solveAtoms_keeps (fun a ha b => tidy_keeps hm (h a ha) n b) b w w' out rows hj hw hact hr

/-! ### Contexts that are started and ended explicitly -/

/-- An atom that starts or ends a context. -/
inductive ContextOp
  | start (name : String)
  | stop (name : String)
deriving DecidableEq

/-- The atom in a query. -/
def ContextOp.atom : ContextOp → Value
  | .start name => .tuple [.str "start_context", .str name]
  | .stop name => .tuple [.str "end_context", .str name]

/-- The context was started and not ended afterwards (specification). -/
def StartedLast (ops : List ContextOp) (name : String) : Prop := ∃ pre post, ops = pre ++ .start name :: post ∧ .stop name ∉ post

/-- The model's only relations for contexts are those of the dialog context. -/
def HasDialogContext (l : Lens W SqlDb) (mods : List (Module W)) (w : W) : Prop :=
  ∀ s, ∀ p ∈ ["context", "start_context", "end_context"], findRelations mods (l.put s w) p = ((dialogContext l).relations (l.put s w) p).toList

theorem HasDialogContext.put {l : Lens W SqlDb} {mods : List (Module W)} {w : W} (h : HasDialogContext l mods w) (s : SqlDb) : HasDialogContext l mods (l.put s w) := by
  intro s'
  rw [l.put_put]
  exact h s'

theorem HasDialogContext.here {l : Lens W SqlDb} {mods : List (Module W)} {w : W} (h : HasDialogContext l mods w) :
    ∀ p ∈ ["context", "start_context", "end_context"], findRelations mods w p = ((dialogContext l).relations w p).toList := by
  have := h (l.get w)
  rwa [l.put_get] at this

theorem startedLast_snoc_start (ops : List ContextOp) (x u : String) :
    StartedLast (ops ++ [.start x]) u ↔ StartedLast ops u ∨ u = x := by
  constructor
  · rintro ⟨pre, post, h, hn⟩
    rcases List.eq_nil_or_concat post with rfl | ⟨post', o, rfl⟩
    · have := List.append_inj_right' h rfl
      simp only [List.cons.injEq, ContextOp.start.injEq, and_true] at this
      exact .inr this.symm
    · rw [List.concat_eq_append, ← List.cons_append, ← List.append_assoc] at h
      have h1 := List.append_inj_left' h rfl
      exact .inl ⟨pre, post', h1, fun hm => hn (by simp [hm])⟩
  · rintro (⟨pre, post, rfl, hn⟩ | rfl)
    · exact ⟨pre, post ++ [.start x], by simp, by simpa using hn⟩
    · exact ⟨ops, [], rfl, by simp⟩

theorem startedLast_snoc_stop (ops : List ContextOp) (x u : String) :
    StartedLast (ops ++ [.stop x]) u ↔ StartedLast ops u ∧ u ≠ x := by
  constructor
  · rintro ⟨pre, post, h, hn⟩
    rcases List.eq_nil_or_concat post with rfl | ⟨post', o, rfl⟩
    · have := List.append_inj_right' h rfl
      simp at this
    · rw [List.concat_eq_append, ← List.cons_append, ← List.append_assoc] at h
      have h1 := List.append_inj_left' h rfl
      have h2 := List.append_inj_right' h rfl
      simp only [List.cons.injEq, and_true] at h2
      subst h2
      refine ⟨⟨pre, post', h1, fun hm => hn (by simp [hm])⟩, ?_⟩
      rintro rfl; exact hn (by simp)
  · rintro ⟨⟨pre, post, rfl, hn⟩, hu⟩
    exact ⟨pre, post ++ [.stop x], by simp, by simp [hn, hu]⟩

/-- An atom of one relation that gives one row of `None`. -/
theorem solveSingle_none {mods : List (Module W)} {p : String} {r : Relation W} {v : Value} {w w' : W} (hf : findRelations mods w p = [r])
    (hp : p ≠ "$disjunction") (hv : v.isVar = false) (api : SolverApi W) (b : Binding)
    (hq : ∀ ctx, r.query [v] ctx w = .ok w' (.rows [[.none]])) :
    solveSingle api mods (.tuple [.str p, v]) b w = .ok w' (.rows [b]) := by
  have hdb : dbValues [v] b = [v] := by cases v <;> first | rfl | simp [Value.isVar] at hv
  simp only [solveSingle, solveSingle.go, hp, if_false, findRelationValues]
  rw [M.bind_run, M.bind_ok (M.gets_run _ w), hf]
  simp only [queryRelations, hdb]
  rw [M.bind_ok (hq _)]
  simp only [M.pure_run, List.map_nil, List.nil_append, dedupRows, List.contains_nil, Bool.false_eq_true, if_false, resultsOf]
  cases v <;> first | (exfalso; revert hv; simp [Value.isVar]; done) | simp [createResults, extendRow, Except.map, M.lift, M.pure]

theorem solve_contextOp {l : Lens W SqlDb} {mods : List (Module W)} (o : ContextOp) (api : SolverApi W)
    (b : Binding) {w : W} (hm : HasDialogContext l mods w) {rows : List (List Value)} (hw : contexts l w = some rows) (hone : OneColumn rows) :
    ∃ w' rows', solveSingle api mods o.atom b w = .ok w' (.rows [b]) ∧ contexts l w' = some rows' ∧ HasDialogContext l mods w' ∧ OneColumn rows' ∧
      ∀ u, [.str u] ∈ rows' ↔ match o with
        | .start x => [.str u] ∈ rows ∨ u = x
        | .stop x => [.str u] ∈ rows ∧ u ≠ x := by
  cases o with
  | start x =>
    obtain ⟨w', h1, h2, s, rfl⟩ := sqlDo_insert hw (.str x)
    refine ⟨_, _, solveSingle_none (r := ⟨"start_context", ["name"], startContext l, some (sqlWrite l), none, []⟩) (hm.here _ (by simp)) (by decide) rfl api b ?_, h2, hm.put s,
      ?_, fun u => ?_⟩
    · intro ctx
      show startContext l _ ctx w = _
      unfold startContext
      simp only [nth, List.getElem?_cons_zero]
      rw [M.bind_ok (M.pure_run _ w), M.bind_ok h1]; rfl
    · intro r hr
      rcases List.mem_append.1 hr with hr | hr
      · exact hone r hr
      · exact ⟨.str x, by simpa using hr⟩
    · simp
  | stop x =>
    obtain ⟨w', h1, h2, s, rfl⟩ := sqlDo_delete hw (.str x)
    refine ⟨_, _, solveSingle_none (r := ⟨"end_context", ["name"], endContext l, some (sqlWrite l), none, []⟩) (hm.here _ (by simp)) (by decide) rfl api b ?_, h2, hm.put s,
      ?_, fun u => ?_⟩
    · intro ctx
      show endContext l _ ctx w = _
      unfold endContext
      simp only [nth, List.getElem?_cons_zero]
      rw [M.bind_ok (M.pure_run _ w), M.bind_ok h1]; rfl
    · intro r hr; exact hone r (List.mem_filter.1 hr).1
    · simp only [List.mem_filter, sqlEq_one (show Value.str x ≠ .none by simp), Bool.not_eq_true', decide_eq_false_iff_not, Value.str.injEq]
      exact ⟨fun h => ⟨h.1, fun e => h.2 e.symm⟩, fun h => ⟨h.1, fun e => h.2 e.symm⟩⟩

theorem solve_contextOps {l : Lens W SqlDb} {mods : List (Module W)} (api : SolverApi W) (b : Binding) :
    ∀ (ops done : List ContextOp) {w : W} {rows : List (List Value)}, HasDialogContext l mods w → contexts l w = some rows → OneColumn rows →
      (∀ u, [.str u] ∈ rows ↔ StartedLast done u) →
      ∃ w' rows', solveAtoms api mods (ops.map ContextOp.atom) b w = .ok w' (.rows [b]) ∧ contexts l w' = some rows' ∧ HasDialogContext l mods w' ∧ OneColumn rows' ∧
        ∀ u, [.str u] ∈ rows' ↔ StartedLast (done ++ ops) u
  | [], done, w, rows, hm, hw, hone, h => ⟨w, rows, rfl, hw, hm, hone, by simpa using h⟩
  | [o], done, w, rows, hm, hw, hone, h => by
    obtain ⟨w', rows', h1, h2, h2', h3, h4⟩ := solve_contextOp o api b hm hw hone
    refine ⟨w', rows', h1, h2, h2', h3, fun u => ?_⟩
    rw [h4]
    cases o with
    | start x => simp only [startedLast_snoc_start, h]
    | stop x => simp only [startedLast_snoc_stop, h]
  | o :: o2 :: ops, done, w, rows, hm, hw, hone, h => by
    obtain ⟨w1, rows1, h1, h2, h2', h3, h4⟩ := solve_contextOp o api b hm hw hone
    have h5 : ∀ u, [.str u] ∈ rows1 ↔ StartedLast (done ++ [o]) u := by
      intro u
      rw [h4]
      cases o with
      | start x => simp only [startedLast_snoc_start, h]
      | stop x => simp only [startedLast_snoc_stop, h]
    obtain ⟨w', rows', g1, g2, g2', g3, g4⟩ := solve_contextOps api b (o2 :: ops) (done ++ [o]) h2' h2 h3 h5
    refine ⟨w', rows', ?_, g2, g2', g3, by simpa using g4⟩
    simp only [List.map_cons, solveAtoms] at g1 ⊢
    rw [M.bind_ok h1]
    simp only [collect]
    rw [M.bind_ok g1]
    rfl

/-- **C25** After a query that starts and ends contexts, in any order and number, `context(name)` has an answer exactly when the context was started
and not ended afterwards. -/
theorem C25_history {l : Lens W SqlDb} {mods : List (Module W)} (ops : List ContextOp) (b : Binding) {w : W}
    (hm : HasDialogContext l mods w) (hw : contexts l w = some []) (n : Nat) :
    ∃ w', (solverAt mods (n + 1)).solve (.list (ops.map ContextOp.atom)) b w = .ok w' (.rows [b]) ∧
      ∀ name b', ∃ bs, (solverAt mods (n + 1)).solve (.list [.tuple [.str "context", .str name]]) b' w' = .ok w' (.rows bs) ∧
        (bs = [b'] ∧ StartedLast ops name ∨ bs = [] ∧ ¬ StartedLast ops name) := by
  obtain ⟨w', rows, h1, h2, hm, h3, h4⟩ := solve_contextOps (solverAt mods n) b ops [] hm hw (by intro r hr; simp at hr)
    (by intro u; simp [StartedLast])
  refine ⟨w', h1, fun name b' => ?_⟩
  have hsel : ∀ rs : List (List Value), OneColumn rs → (rs.filter (rowMatches [.str name])) =
      List.replicate (rs.filter (rowMatches [.str name])).length [.str name] := by
    intro rs hrs
    refine List.eq_replicate_iff.2 ⟨rfl, fun r hr => ?_⟩
    obtain ⟨hr, hm⟩ := List.mem_filter.1 hr
    obtain ⟨v, rfl⟩ := hrs r hr
    simp only [rowMatches] at hm
    simpa [eq_comm] using hm
  have hmem : [.str name] ∈ rows ↔ rows.filter (rowMatches [.str name]) ≠ [] := by
    constructor
    · intro h hc
      have := List.filter_eq_nil_iff.1 hc _ h
      simp [rowMatches] at this
    · intro h
      obtain ⟨r, hr⟩ := List.exists_mem_of_ne_nil _ h
      have h5 := hr
      rw [hsel rows h3] at h5
      rw [← (List.mem_replicate.1 h5).2]
      exact (List.mem_filter.1 hr).1
  rw [List.nil_append] at h4
  rw [← h4 name]
  show ∃ bs, solveSingle.go (solverAt mods n) mods b' "context" [.str name] w' = _ ∧ _
  simp only [solveSingle.go, show ("context" : String) ≠ "$disjunction" by decide, if_false, findRelationValues]
  rw [M.bind_run, M.bind_ok (M.gets_run _ w'), show findRelations mods w' "context" =
    [⟨"context", ["name"], sqlQuery l, some (sqlWrite l), none, []⟩] from hm.here _ (by simp)]
  have hq : ∀ ctx : Ctx W, ctx.predicate = "context" → sqlQuery l [.str name] ctx w' = .ok w' (.rows (rows.filter (rowMatches [.str name]))) := by
    intro ctx hc
    unfold sqlQuery
    rw [M.bind_ok (M.gets_run _ w'), hc]
    have : SqlDb.select "context" [.str name] (l.get w') = .ok (rows.filter (rowMatches [.str name])) := by
      simp only [SqlDb.select]; rw [show (l.get w').get "context" = some rows from h2]
    rw [this]; rfl
  simp only [queryRelations, show dbValues [.str name] b' = [.str name] from rfl]
  rw [M.bind_ok (hq _ rfl)]
  have hrep : ∀ k seen, seen.contains (strRow [.str name]) = true → dedupRows seen (List.replicate k [.str name]) = [] := by
    intro k
    induction k with
    | zero => intro seen _; rfl
    | succ k ih => intro seen h; rw [List.replicate_succ, dedupRows, if_pos h]; exact ih seen h
  rw [hmem, hsel rows h3]
  cases (rows.filter (rowMatches [.str name])).length with
  | zero =>
    refine ⟨[], ?_, .inr ⟨rfl, by simp⟩⟩
    rfl
  | succ k =>
    refine ⟨[b'], ?_, .inl ⟨rfl, by simp⟩⟩
    have : dedupRows [] (List.replicate (k + 1) [Value.str name]) = [[.str name]] := by
      rw [List.replicate_succ, dedupRows, if_neg (by simp), hrep k _ (by simp)]
    simp only [M.pure_run, List.map_nil, List.nil_append, this, resultsOf]
    simp [createResults, extendRow, Except.map, M.lift, M.pure]

example : HasDialogContext (Lens.id SqlDb) (modelOf [dialogContext (Lens.id SqlDb)]) dialogInit ∧ contexts (Lens.id SqlDb) dialogInit = some [] ∧
    StartedLast [.start "a", .stop "a", .start "b", .start "a", .stop "c"] "a" := by
  refine ⟨fun w p hp => ?_, rfl, [.start "a", .stop "a", .start "b"], [.stop "c"], rfl, by decide⟩
  simp only [List.mem_cons, List.not_mem_nil, or_false] at hp
  rcases hp with rfl | rfl | rfl <;> rfl

/-! ### Examples and limits -/

/-- The dialog context as the only module. -/
abbrev dialogMods : List (Module SqlDb) := modelOf [dialogContext (Lens.id SqlDb)]

theorem dialogMods_has : HasWithContext (Lens.id SqlDb) (fun _ => True) dialogMods := ⟨fun _ _ => ⟨_, rfl, rfl⟩, fun _ _ _ => trivial⟩

/-- Beside an inference module, as long as its rules stay the same. -/
example : HasWithContext (Lens.snd InfState SqlDb) (fun w => w.1 = InfState.init)
      (modelOf [inferenceModule (Lens.fst InfState SqlDb), dialogContext (Lens.snd InfState SqlDb)]) ∧
    HasDialogContext (Lens.snd InfState SqlDb) (modelOf [inferenceModule (Lens.fst InfState SqlDb), dialogContext (Lens.snd InfState SqlDb)])
      (InfState.init, dialogInit) := by
  refine ⟨⟨fun w hw => ?_, fun w s hw => hw⟩, fun s p hp => ?_⟩
  · obtain ⟨w1, w2⟩ := w
    simp only at hw
    subst hw
    exact ⟨_, rfl, rfl⟩
  · simp only [List.mem_cons, List.not_mem_nil, or_false] at hp
    rcases hp with rfl | rfl | rfl <;> rfl

/-- `context(a)` leaves the contexts alone. -/
theorem context_tidy (act : List Value) (a : String) : Tidy (Lens.id SqlDb) (fun _ => True) dialogMods act (.tuple [.str "context", .str a]) := by
  refine .other _ _ fun n b act' w w' out rows _ hw _ hr => ⟨trivial, ?_⟩
  have : ∀ w w' q, queryRelations (solverAt dialogMods n) (decide (0 < 0)) [.str a] b [.str a]
      [⟨"context", ["name"], sqlQuery (Lens.id SqlDb), some (sqlWrite (Lens.id SqlDb)), none, []⟩] [] w = .ok w' q → w' = w := by
    intro w w' q h
    simp only [queryRelations, sqlQuery] at h
    obtain ⟨w1, o1, h1, h2⟩ := M.bind_eq_ok.1 h
    obtain ⟨w2, o2, h3, h4⟩ := M.bind_eq_ok.1 h1
    obtain ⟨w3, o3, h5, h6⟩ := M.bind_eq_ok.1 h4
    have e1 := (M.lift_eq_ok.1 h5).1
    have e2 := (M.pure_eq_ok.1 h6).1
    simp only [M.gets_run, Res.ok.injEq] at h3
    have e3 : w1 = w' := by
      cases o1 with
      | rows rs => exact (M.pure_eq_ok.1 h2).1
      | iter k => exact (M.pure_eq_ok.1 h2).1
    rw [← e3, ← e2, ← e1, h3.1]
  simp only [solveSingle, solveSingle.go, show ("context" : String) ≠ "$disjunction" by decide, if_false, findRelationValues] at hr
  obtain ⟨w1, o1, h1, h2⟩ := M.bind_eq_ok.1 hr
  rw [M.bind_ok (M.gets_run _ w)] at h1
  have e1 := this w w1 o1 h1
  have e2 := (resultsOf_ok h2).1
  rw [e2, e1]; exact hw

/-- Contexts nested in contexts meet the hypotheses. -/
example : ∀ a ∈ [Value.tuple [.str "with_context", .str "a", .list
    [.tuple [.str "context", .str "a"], .tuple [.str "with_context", .str "b", .list [.tuple [.str "context", .str "a"]]]]]],
    Tidy (Lens.id SqlDb) (fun _ => True) dialogMods [.str "c"] a := by
  intro a ha
  simp only [List.mem_singleton] at ha
  subst ha
  refine .nest _ _ _ (by decide) fun a ha => ?_
  simp only [List.mem_cons, List.not_mem_nil, or_false] at ha
  rcases ha with rfl | rfl
  · exact context_tidy _ _
  · refine .nest _ _ _ (by decide) fun a ha => ?_
    simp only [List.mem_singleton] at ha
    subst ha
    exact context_tidy _ _

/-- **C25** Limit: a context nested in itself is inactive in the rest of the outer body: the query `with_context(a, [with_context(a,
[]), context(a), start_context(b)])` does not start `b`, but the same query without the inner context does. -/
theorem C25_nested_same_name :
    (solverAt dialogMods 3).solve (.list [.tuple [.str "with_context", .str "a", .list
      [.tuple [.str "with_context", .str "a", .list []], .tuple [.str "context", .str "a"], .tuple [.str "start_context", .str "b"]]]])
      [] dialogInit = .ok dialogInit (.rows [[]]) ∧
    (solverAt dialogMods 3).solve (.list [.tuple [.str "with_context", .str "a", .list
      [.tuple [.str "context", .str "a"], .tuple [.str "start_context", .str "b"]]]])
      [] dialogInit = .ok [("dialog_isa", []), ("context", [[.str "b"]])] (.rows [[]]) := by
  constructor <;> decide +kernel

/-- **C25** Limit: an outer context with the same name does not survive. -/
theorem C25_outer_lost :
    (solverAt dialogMods 3).solve (.list [.tuple [.str "with_context", .str "a", .list []]])
      [] [("dialog_isa", []), ("context", [[.str "a"]])] = .ok dialogInit (.rows [[]]) := by
  decide +kernel

/-- **C25** Limit: a body that raises leaves the context active. -/
theorem C25_raising_body :
    (solverAt dialogMods 3).solve (.list [.tuple [.str "with_context", .str "a", .list [.tuple [.str "no_such_relation"]]]])
      [] dialogInit = .err [("dialog_isa", []), ("context", [[.str "a"]])] (.exception "No relation available in the model") := by
  decide +kernel

end Verif
