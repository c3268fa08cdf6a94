import Verif.DedupLemmas
import Verif.Props.Solver

/-!
# Property C07: deduplication of rows by their printed form
-/

namespace Verif

variable {W : Type}

/-- **C07.** Two rows with the same printed form are equal. -/
theorem C07_printed_form_determines_row (a b : List Value) (ha : legalList a = true) (hb : legalList b = true)
    (h : strRow a = strRow b) : a = b := strRow_injective ha hb h

/-- The rows the relations return one after the other, before deduplication. -/
abbrev rowsReturned (outs : List (List (List Value))) : List (List Value) := outs.flatten

/-- **C07.** The rows that `find_relation_values` passes on are exactly the rows that the relations returned, each once:
deduplication removes no row that is not equal to one that is kept. -/
theorem C07_dedup_exact (api : SolverApi W) (mods : List (Module W)) (p : String) (args : List Value) (b : Binding)
    (w w' : W) (out : List (List Value)) (h : findRelationValues api mods p args b w = .ok w' (.rows out)) :
    ∃ outs, RunsAll api args b (dbValues args b) (findRelations mods w p) w w' outs ∧
      ((∀ r ∈ rowsReturned outs, legalList r = true) → (∀ r, r ∈ out ↔ r ∈ rowsReturned outs) ∧ out.Nodup) := by
  simp only [findRelationValues] at h
  rw [M.bind_ok (M.gets_run _ w)] at h
  cases hf : findRelations mods w p with
  | nil => rw [hf] at h; simp at h
  | cons r rs =>
    rw [hf] at h
    obtain ⟨outs, h1, h2⟩ := queryRelations_ok h
    refine ⟨outs, h1, fun hl => ?_⟩
    simp only [List.nil_append, List.map_nil] at h2
    subst h2
    exact ⟨mem_dedupRows hl, List.Pairwise.of_map strRow (fun a b h e => h (by rw [e])) (dedupRows_nodup [] _)⟩

/-- **C07** (printed texts) A text of printable ASCII characters without backslash is printed between single quotes; between double quotes if
it contains single but no double quotes; if it contains both, between single quotes with a backslash before each single quote. -/
theorem C07_text_printed (s : String) (h : ∀ c ∈ s.toList, 32 ≤ c.toNat ∧ c.toNat < 127 ∧ c ≠ '\\') :
    ('\'' ∉ s.toList → reprV (.str s) = ['\''] ++ s.toList ++ ['\'']) ∧
      ('\'' ∈ s.toList → '"' ∉ s.toList → reprV (.str s) = ['"'] ++ s.toList ++ ['"']) ∧
      ('\'' ∈ s.toList → '"' ∈ s.toList →
        reprV (.str s) = ['\''] ++ s.toList.flatMap (fun c => if c = '\'' then ['\\', '\''] else [c]) ++ ['\'']) := by
  have hesc : ∀ q c, (32 ≤ c.toNat ∧ c.toNat < 127 ∧ c ≠ '\\') → escChar q c = if c = q then ['\\', q] else [c] := by
    intro q c ⟨h1, h2, h3⟩
    have hn : c ≠ '\n' := by rintro rfl; revert h1; decide
    have hr : c ≠ '\r' := by rintro rfl; revert h1; decide
    have ht : c ≠ '\t' := by rintro rfl; revert h1; decide
    simp [escChar, h3, hn, hr, ht, isPrintable, h1, h2]
  have hflat : ∀ q, s.toList.flatMap (escChar q) = s.toList.flatMap fun c => if c = q then ['\\', q] else [c] := by
    intro q
    rw [List.flatMap_def, List.flatMap_def, List.map_congr_left fun c hc => hesc q c (h c hc)]
  have hid : ∀ (l : List Char) q, q ∉ l → (l.flatMap fun c => if c = q then ['\\', q] else [c]) = l := by
    intro l q hq
    induction l with
    | nil => rfl
    | cons c l ih =>
      simp only [List.mem_cons, not_or] at hq
      rw [List.flatMap_cons, if_neg (Ne.symm hq.1), ih hq.2]
      rfl
  refine ⟨fun h1 => ?_, fun h1 h2 => ?_, fun h1 h2 => ?_⟩
  · simp only [reprV, reprStr, quoteFor, h1, false_and, if_false, hflat, hid _ _ h1]
    simp
  · simp only [reprV, reprStr, quoteFor, h1, h2, not_false_eq_true, and_self, if_true, hflat, hid _ _ h2]
    simp
  · simp only [reprV, reprStr, quoteFor, h1, h2, not_true_eq_false, and_false, if_false, hflat]
    simp

example : reprV (.str "say \"it's\"") = "'say \"it\\'s\"'".toList := by decide +kernel

/-- Rows that differ only in quoting, escapes or nesting are told apart. -/
example : legalList [.str "it's \"x\"\n", .list [.num (1/2), .none], .tuple [.var "$3"]] = true ∧
    legalList [.str "it's \\\"x\\\"", .list [.num 1, .num 2], .tuple [.str "$3"]] = true := by decide +kernel

end Verif
