import Verif.SolverLemmas
import Verif.ReprLemmas

/-!
# Lemmas about the row deduplication
-/

namespace Verif

variable {W : Type}

theorem dedupRows_append (seen : List (List Char)) (a b : List (List Value)) :
    dedupRows seen (a ++ b) = dedupRows seen a ++ dedupRows (seen ++ (dedupRows seen a).map strRow) b := by
  induction a generalizing seen with
  | nil => simp [dedupRows]
  | cons r a ih =>
    simp only [List.cons_append, dedupRows]
    split
    · exact ih seen
    · simp [ih]

theorem dedupRows_subset {seen : List (List Char)} {rows : List (List Value)} {r : List Value}
    (h : r ∈ dedupRows seen rows) : r ∈ rows ∧ strRow r ∉ seen := by
  induction rows generalizing seen with
  | nil => simp [dedupRows] at h
  | cons x rows ih =>
    simp only [dedupRows] at h
    split at h
    · exact ⟨List.mem_cons_of_mem _ (ih h).1, (ih h).2⟩
    · rename_i hx
      rcases List.mem_cons.1 h with e | e
      · subst e; exact ⟨by simp, by simpa using hx⟩
      · have := ih e
        exact ⟨List.mem_cons_of_mem _ this.1, fun hs => this.2 (List.mem_append_left _ hs)⟩

theorem dedupRows_covers {seen : List (List Char)} {rows : List (List Value)} {r : List Value}
    (h : r ∈ rows) : strRow r ∈ seen ∨ ∃ r' ∈ dedupRows seen rows, strRow r' = strRow r := by
  induction rows generalizing seen with
  | nil => simp at h
  | cons x rows ih =>
    simp only [dedupRows]
    rcases List.mem_cons.1 h with e | e
    · subst e
      split
      · rename_i hs; exact .inl (by simpa using hs)
      · exact .inr ⟨r, by simp, rfl⟩
    · split
      · exact ih e
      · rcases ih (seen := seen ++ [strRow x]) e with h1 | ⟨r', h1, h2⟩
        · rw [List.mem_append, List.mem_singleton] at h1
          rcases h1 with h1 | h1
          · exact .inl h1
          · exact .inr ⟨x, by simp, h1.symm⟩
        · exact .inr ⟨r', List.mem_cons_of_mem _ h1, h2⟩

theorem dedupRows_nodup (seen : List (List Char)) (rows : List (List Value)) : ((dedupRows seen rows).map strRow).Nodup := by
  induction rows generalizing seen with
  | nil => simp [dedupRows]
  | cons x rows ih =>
    simp only [dedupRows]
    split
    · exact ih seen
    · simp only [List.map_cons, List.nodup_cons]
      refine ⟨?_, ih _⟩
      intro h
      obtain ⟨r, hr, e⟩ := List.mem_map.1 h
      have := (dedupRows_subset hr).2
      rw [e] at this
      exact this (by simp)

theorem mem_dedupRows {rows : List (List Value)} (hl : ∀ r ∈ rows, legalList r = true) (r : List Value) :
    r ∈ dedupRows [] rows ↔ r ∈ rows := by
  constructor
  · intro h; exact (dedupRows_subset h).1
  · intro h
    rcases dedupRows_covers (seen := []) h with h1 | ⟨r', h1, h2⟩
    · simp at h1
    · have := strRow_injective (hl r' (dedupRows_subset h1).1) (hl r h) h2
      exact this ▸ h1

/-- All relations ran one after the other and each returned rows. -/
inductive RunsAll (api : SolverApi W) (args : List Value) (b : Binding) (db : List Value) :
    List (Relation W) → W → W → List (List (List Value)) → Prop
  | nil (w) : RunsAll api args b db [] w w []
  | cons (r rs w w1 w2 rows outs) :
      r.query db { predicate := r.predicate, columns := r.columns, arguments := args, binding := b, solver := api } w
        = .ok w1 (.rows rows) →
      RunsAll api args b db rs w1 w2 outs → RunsAll api args b db (r :: rs) w w2 (rows :: outs)

theorem queryRelations_ok {api : SolverApi W} {mult : Bool} {args : List Value} {b : Binding} {db : List Value}
    {rels : List (Relation W)} {acc : List (List Value)} {w w' : W} {out : List (List Value)}
    (h : queryRelations api mult args b db rels acc w = .ok w' (.rows out)) :
    ∃ outs, RunsAll api args b db rels w w' outs ∧ out = acc ++ dedupRows (acc.map strRow) outs.flatten := by
  induction rels generalizing acc w with
  | nil =>
    simp only [queryRelations, M.pure_eq_ok, QOut.rows.injEq] at h
    obtain ⟨rfl, rfl⟩ := h
    exact ⟨[], .nil _, by simp [dedupRows]⟩
  | cons r rs ih =>
    simp only [queryRelations, M.bind_eq_ok] at h
    obtain ⟨w1, o, h1, h2⟩ := h
    cases o with
    | iter n =>
      dsimp only at h2
      split at h2 <;> simp at h2
    | rows rows =>
      obtain ⟨outs, h3, h4⟩ := ih h2
      refine ⟨rows :: outs, .cons _ _ _ _ _ _ _ h1 h3, ?_⟩
      rw [h4, List.flatten_cons, dedupRows_append]
      simp [List.append_assoc]

theorem queryRelations_run {api : SolverApi W} {mult : Bool} {args : List Value} {b : Binding} {db : List Value}
    {rels : List (Relation W)} {w w' : W} {outs : List (List (List Value))}
    (h : RunsAll api args b db rels w w' outs) (acc : List (List Value)) :
    queryRelations api mult args b db rels acc w = .ok w' (.rows (acc ++ dedupRows (acc.map strRow) outs.flatten)) := by
  induction h generalizing acc with
  | nil w => simp [queryRelations, dedupRows]
  | cons r rs w w1 w2 rows outs h1 h2 ih =>
    simp only [queryRelations]
    rw [M.bind_ok h1]
    simp only [ih, List.flatten_cons, dedupRows_append, List.append_assoc, List.map_append]

end Verif
