import Verif.SolveOne
import Verif.Props.Datalog

/-!
# C103: asking for one answer
-/

namespace Verif

variable {W : Type}

/-- What `if result:` does with a dictionary or `None` (specification). -/
def isTruthy : Option Binding → Bool
  | none => false
  | some b => !b.isEmpty

/-- **C103** The one answer is the first of all answers; there is none exactly if there are no answers. -/
theorem C103_first {api : SolverApi W} {atoms : Value} {b : Binding} {w w' : W} {bs : List Binding} (h : api.solve atoms b w = .ok w' (.rows bs)) :
    solve1 api atoms b w = .ok w' bs.head? := by
  simp [solve1, M.bind_run, h]

/-- **C103** If the answers are only counted there is none to take: without answers the result is `None`, otherwise a `TypeError`. -/
theorem C103_counted {api : SolverApi W} {atoms : Value} {b : Binding} {w w' : W} {single : List Value} {k : Nat}
    (h : api.solve atoms b w = .ok w' (.iter single k)) :
    solve1 api atoms b w = if k = 0 then .ok w' none else .err w' .typeError := by
  cases k <;> simp [solve1, M.bind_run, h]

/-- **C103** An exception of the query is passed on. -/
theorem C103_exception {api : SolverApi W} {atoms : Value} {b : Binding} {w w' : W} {e : Err} (h : api.solve atoms b w = .err w' e) :
    solve1 api atoms b w = .err w' e := by
  simp [solve1, M.bind_run, h]

/-- **C103** Over fact tables: the result is an assignment under which all atoms are stored, or `None` if there is no such assignment. -/
theorem C103_tables {w : W} {ar : String → Option Nat} {dbs : List (Dict (List (List Value)))} {ms : List (Module W)}
    (hf : FactModules ar w ms dbs) (hok : ProgramOk W ar dbs []) {q : Query} (hq : QueryOk ar q) {b : Binding} (hb : PlainB b) (n : Nat) :
    ∃ o, solve1 (solverAt (modelOf ms) (n + 1)) (toQuery q) b w = .ok w o ∧
      (∀ b', o = some b' → Extends b b' ∧ (∀ x, b'.has x = true ↔ b.has x = true ∨ x ∈ queryVars q) ∧ AllStored dbs q (asg b')) ∧
      (o = none → ∀ σ : Assignment, (∀ x, Plain (σ x)) → Agrees σ b → ¬ AllStored dbs q σ) := by
  obtain ⟨bs, h1, h2, h3, -⟩ := C05_tables_exact hf hok hq hb n
  refine ⟨bs.head?, C103_first h1, fun b' hb' => h2 b' (List.mem_of_head? hb'), fun hn σ hp ha hs => ?_⟩
  obtain ⟨b', hb', -⟩ := h3 σ hp ha hs
  rw [List.head?_eq_none_iff] at hn
  rw [hn] at hb'
  simp at hb'

/-- Limit of C103: the answer to a query without variables, asked without binding, is the empty dictionary if the query holds, which `if result:`
does not tell from `None`. Callers must compare with `None`, as `tests/integration/chat80/Chat80Module.py:154` does and
`tests/integration/sir/SIRModule.py:125` does not (its query has a variable). -/
theorem C103_not_truthy {w : W} {ar : String → Option Nat} {dbs : List (Dict (List (List Value)))} {ms : List (Module W)}
    (hf : FactModules ar w ms dbs) (hok : ProgramOk W ar dbs []) {q : Query} (hq : QueryOk ar q) (hv : queryVars q = []) (n : Nat) :
    ∃ o, solve1 (solverAt (modelOf ms) (n + 1)) (toQuery q) [] w = .ok w o ∧ isTruthy o = false ∧
      (o = some [] ↔ ∀ a ∈ q, ∃ db ∈ dbs, ∃ rows, db.get a.1 = some rows ∧ a.2 ∈ rows) := by
  obtain ⟨o, h1, h2, h3⟩ := C103_tables hf hok hq (b := []) (by intro x v h; simp at h) n
  have hg : ∀ σ : Assignment, AllStored dbs q σ ↔ ∀ a ∈ q, ∃ db ∈ dbs, ∃ rows, db.get a.1 = some rows ∧ a.2 ∈ rows := by
    intro σ
    have hm : ∀ a ∈ q, a.2.map (inst σ) = a.2 := by
      intro a ha
      refine (List.map_congr_left fun v hv' => ?_).trans (List.map_id _)
      have : ∀ x, v ≠ .var x := fun x e => by
        have := mem_queryVars.2 ⟨a, ha, e ▸ hv'⟩
        rw [hv] at this
        simp at this
      cases v <;> first | rfl | exact absurd rfl (this _)
    constructor
    · intro h a ha
      obtain ⟨db, hdb, rows, hr, hrow⟩ := h a ha
      exact ⟨db, hdb, rows, hr, hm a ha ▸ hrow⟩
    · intro h a ha
      obtain ⟨db, hdb, rows, hr, hrow⟩ := h a ha
      exact ⟨db, hdb, rows, hr, (hm a ha).symm ▸ hrow⟩
  have he : ∀ b', o = some b' → b' = [] := by
    intro b' hb'
    cases b' with
    | nil => rfl
    | cons kv b' =>
      have := ((h2 _ hb').2.1 kv.1).1 (by simp [Dict.has, Dict.get])
      rw [hv] at this
      simp [Dict.has] at this
  refine ⟨o, h1, ?_, ?_⟩
  · cases o with
    | none => rfl
    | some b' => rw [he b' rfl]; rfl
  · cases o with
    | none =>
      refine ⟨fun h => by simp at h, fun h => ?_⟩
      exact absurd ((hg fun _ => .num 0).2 h) (h3 rfl (fun _ => .num 0) (fun _ => ⟨by simp, rfl, rfl⟩) fun x v h => by simp at h)
    | some b' =>
      have := he b' rfl
      subst this
      exact ⟨fun _ => (hg _).1 (h2 [] rfl).2.2, fun _ => rfl⟩

/-- One of the parents in the example, and a query that holds but whose answer is not true in an `if`. -/
example : solve1 (solverAt (modelOf ([Ex.family].map (tableModule Unit))) 1) (toQuery [("parent", [.var "X", .str "cas"])]) [] () =
      .ok () (some [("X", .str "bob")]) ∧
    solve1 (solverAt (modelOf ([Ex.family].map (tableModule Unit))) 1) (toQuery [("parent", [.str "bob", .str "cas"])]) [] () = .ok () (some []) := by
  decide +kernel

example := C103_tables (w := ()) (tableModules_fact _ _ _) Ex.tables_ok (q := [("parent", [.var "X", .var "Y"]), ("parent", [.var "Y", .var "Z"])])
  (by simp [QueryOk, ArgsOk, Value.isVar]) (b := []) (by intro x v h; simp at h) 0

example := C103_not_truthy (w := ()) (tableModules_fact _ _ _) Ex.tables_ok (q := [("parent", [.str "bob", .str "cas"])])
  (by simp only [QueryOk, ArgsOk, List.mem_singleton, forall_eq, List.mem_cons, List.not_mem_nil, or_false]; simp [Value.isVar, Plain]; exact ⟨rfl, rfl⟩) rfl 0

end Verif
