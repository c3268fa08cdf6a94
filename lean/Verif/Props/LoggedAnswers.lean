import Verif.Logging
import Verif.ReprLemmas

/-!
# C80: logged answers
-/

namespace Verif

/-- All values of the binding print uniquely: the variables in them have proper names. -/
def Binding.proper (b : Binding) : Prop := ∀ kv ∈ b, legal kv.2 = true

/-- What follows the entries of a binding that has been printed in part. -/
def entriesText : Binding → Str
  | [] => []
  | kv :: b => [',', ' '] ++ reprStr kv.1.toList ++ [':', ' '] ++ reprV kv.2 ++ entriesText b

theorem joinText_entries (kv : String × Value) (b : Binding) :
    joinText [',', ' '] ((kv :: b).map fun kv => reprStr kv.1.toList ++ [':', ' '] ++ reprV kv.2) =
      reprStr kv.1.toList ++ [':', ' '] ++ reprV kv.2 ++ entriesText b := by
  induction b generalizing kv with
  | nil => simp [joinText, entriesText]
  | cons kv' b ih =>
    rw [List.map_cons, List.map_cons, joinText, ← List.map_cons (f := fun kv : String × Value => reprStr kv.1.toList ++ [':', ' '] ++ reprV kv.2), ih]
    simp [entriesText]

theorem entries_delim (b : Binding) (r : Str) : Delim (entriesText b ++ '}' :: r) := by
  cases b <;> simp [entriesText, Delim]

theorem entry_unique {kv kv' : String × Value} {b b' : Binding} {r r' : Str} (h1 : legal kv.2 = true) (h2 : legal kv'.2 = true)
    (h : reprStr kv.1.toList ++ [':', ' '] ++ reprV kv.2 ++ entriesText b ++ '}' :: r =
      reprStr kv'.1.toList ++ [':', ' '] ++ reprV kv'.2 ++ entriesText b' ++ '}' :: r') :
    kv = kv' ∧ entriesText b ++ '}' :: r = entriesText b' ++ '}' :: r' := by
  simp only [List.append_assoc] at h
  obtain ⟨e1, h⟩ := reprStr_unique h
  simp only [List.cons_append, List.nil_append, List.cons.injEq, true_and] at h
  obtain ⟨e2, h⟩ := (repr_unique_aux _).1 _ _ _ _ (Nat.lt_succ_self _) h1 h2 (entries_delim _ _) (entries_delim _ _) h
  exact ⟨Prod.ext (String.ext e1) e2, h⟩

theorem entries_unique : ∀ {b b' : Binding} {r r' : Str}, b.proper → b'.proper → entriesText b ++ '}' :: r = entriesText b' ++ '}' :: r' →
    b = b' ∧ r = r'
  | [], [], _, _, _, _, h => by simpa [entriesText] using h
  | [], _ :: _, _, _, _, _, h => by simp [entriesText] at h
  | _ :: _, [], _, _, _, _, h => by simp [entriesText] at h
  | kv :: b, kv' :: b', r, r', h1, h2, h => by
    simp only [entriesText, List.append_assoc, List.cons_append, List.nil_append, List.cons.injEq, true_and] at h
    obtain ⟨e, h⟩ := entry_unique (b := b) (b' := b') (r := r) (r' := r') (h1 kv (by simp)) (h2 kv' (by simp)) (by simpa using h)
    obtain ⟨e2, e3⟩ := entries_unique (fun x hx => h1 x (List.mem_cons_of_mem _ hx)) (fun x hx => h2 x (List.mem_cons_of_mem _ hx)) h
    exact ⟨by rw [e, e2], e3⟩

theorem reprBinding_cons (kv : String × Value) (b : Binding) :
    reprBinding (kv :: b) = '{' :: (reprStr kv.1.toList ++ [':', ' '] ++ reprV kv.2 ++ entriesText b ++ ['}']) := by
  rw [reprBinding, joinText_entries]; simp

theorem reprStr_head (s r x : Str) : reprStr s ++ r ≠ '}' :: x := by
  intro h
  rcases quoteFor_cases s with e | e <;> simp [reprStr, e] at h

theorem reprBinding_unique {b b' : Binding} {r r' : Str} (h1 : b.proper) (h2 : b'.proper) (h : reprBinding b ++ r = reprBinding b' ++ r') :
    b = b' ∧ r = r' := by
  cases b with
  | nil =>
    cases b' with
    | nil => simpa [reprBinding, joinText] using h
    | cons kv' b' =>
      rw [reprBinding_cons] at h
      simp only [reprBinding, List.map_nil, joinText, List.append_nil, List.cons_append, List.nil_append, List.append_assoc, List.cons.injEq,
        true_and] at h
      exact absurd h.symm (reprStr_head _ _ _)
  | cons kv b =>
    cases b' with
    | nil =>
      rw [reprBinding_cons] at h
      simp only [reprBinding, List.map_nil, joinText, List.append_nil, List.cons_append, List.nil_append, List.append_assoc, List.cons.injEq,
        true_and] at h
      exact absurd h (reprStr_head _ _ _)
    | cons kv' b' =>
      rw [reprBinding_cons, reprBinding_cons] at h
      obtain ⟨e, h⟩ := entry_unique (b := b) (b' := b') (r := r) (r' := r') (h1 kv (by simp)) (h2 kv' (by simp)) (by simpa using h)
      obtain ⟨e2, e3⟩ := entries_unique (fun x hx => h1 x (List.mem_cons_of_mem _ hx)) (fun x hx => h2 x (List.mem_cons_of_mem _ hx)) h
      exact ⟨by rw [e, e2], e3⟩

/-- What follows the first of the lines. -/
def linesText : List Binding → Str
  | [] => []
  | b :: bs => '\n' :: (reprBinding b ++ linesText bs)

theorem joinText_lines (b : Binding) (bs : List Binding) : joinText ['\n'] ((b :: bs).map reprBinding) = reprBinding b ++ linesText bs := by
  induction bs generalizing b with
  | nil => simp [joinText, linesText]
  | cons c bs ih => rw [List.map_cons, List.map_cons, joinText, ← List.map_cons, ih]; simp [linesText]

theorem linesText_unique : ∀ {bs bs' : List Binding}, (∀ b ∈ bs, b.proper) → (∀ b ∈ bs', b.proper) → linesText bs = linesText bs' → bs = bs'
  | [], [], _, _, _ => rfl
  | [], _ :: _, _, _, h => by simp [linesText] at h
  | _ :: _, [], _, _, h => by simp [linesText] at h
  | b :: bs, b' :: bs', h1, h2, h => by
    simp only [linesText, List.cons.injEq, true_and] at h
    obtain ⟨e, h⟩ := reprBinding_unique (h1 b (by simp)) (h2 b' (by simp)) h
    rw [e, linesText_unique (fun x hx => h1 x (List.mem_cons_of_mem _ hx)) (fun x hx => h2 x (List.mem_cons_of_mem _ hx)) h]

/-- **C80** (answers) The answers of a query are logged in full: two lists of answers with the same entries in the log are the same list, with the
same variables, values and order. -/
theorem C80_answers {A : Type} {bs bs' : List Binding} (h1 : ∀ b ∈ bs, b.proper) (h2 : ∀ b ∈ bs', b.proper)
    (h : productEntries (A := A) (.executed (.rows bs)) = productEntries (A := A) (.executed (.rows bs'))) : bs = bs' := by
  simp only [productEntries, entry, List.cons.injEq, and_true, List.append_cancel_right_eq] at h
  have hne : ∀ (b : Binding) (bs : List Binding), joinText ['\n'] ((b :: bs).map reprBinding) ≠ [] := fun b bs he => by
    rw [joinText_lines] at he; simp [reprBinding] at he
  cases bs with
  | nil =>
    cases bs' with
    | nil => rfl
    | cons b' bs' => exact absurd h.symm (hne b' bs')
  | cons b bs =>
    cases bs' with
    | nil => exact absurd h (hne b bs)
    | cons b' bs' =>
      rw [joinText_lines, joinText_lines] at h
      obtain ⟨e, h⟩ := reprBinding_unique (h1 b (by simp)) (h2 b' (by simp)) h
      rw [e, linesText_unique (fun x hx => h1 x (List.mem_cons_of_mem _ hx)) (fun x hx => h2 x (List.mem_cons_of_mem _ hx)) h]

/-- Two answers, one with a list in it. -/
def loggedAnswers : List Binding := [[("E1", .str "it's"), ("E2", .num 3)], [("E1", .list [.str "a", .none])]]

example : (∀ b ∈ loggedAnswers, b.proper) ∧ productEntries (A := Nat) (.executed (.rows loggedAnswers)) =
    ["{'E1': \"it's\", 'E2': 3}\n{'E1': ['a', None]}\n".toList] := by
  constructor
  · unfold Binding.proper; decide
  · decide +kernel

/-! ## The settings of a logger -/

/-- A call of `log_all_tests`, `log_only_last_test` or `log_no_tests`, or of `log_products`. -/
inductive LogSetting where
  | tests (which : Which)
  | products (processors : List Nat)

/-- The logger after a call. -/
def LogSetting.apply (lg : Logger) : LogSetting → Logger
  | .tests which => lg.logTests which
  | .products ps => lg.logProducts ps

/-- The last call that tells which tests are logged (specification). -/
def lastTests (calls : List LogSetting) : Option Which :=
  (calls.filterMap fun | .tests which => some which | .products _ => none).getLast?

/-- The last call that tells which products are logged (specification). -/
def lastProducts (calls : List LogSetting) : Option (List Nat) :=
  (calls.filterMap fun | .tests _ => none | .products ps => some ps).getLast?

/-- **C80** (settings) Of the calls that set up a new logger the last one of each kind counts; without any only the last test is logged, and no
products are. -/
theorem C80_settings (calls : List LogSetting) :
    (calls.foldl LogSetting.apply Logger.new).whichTests = (lastTests calls).getD .last ∧
    (calls.foldl LogSetting.apply Logger.new).showProducts = (lastProducts calls).isSome ∧
    (calls.foldl LogSetting.apply Logger.new).processors = (lastProducts calls).getD [] ∧
    (calls.foldl LogSetting.apply Logger.new).entries = [] := by
  suffices hs : ∀ rev : List LogSetting, let lg := rev.reverse.foldl LogSetting.apply Logger.new
      lg.whichTests = (lastTests rev.reverse).getD .last ∧ lg.showProducts = (lastProducts rev.reverse).isSome ∧
      lg.processors = (lastProducts rev.reverse).getD [] ∧ lg.entries = [] by
    have h := hs calls.reverse
    rwa [List.reverse_reverse] at h
  intro rev
  induction rev with
  | nil => exact ⟨rfl, rfl, rfl, rfl⟩
  | cons c rev ih =>
    simp only [List.reverse_cons, List.foldl_append, List.foldl_cons, List.foldl_nil, lastTests, lastProducts, List.filterMap_append] at ih ⊢
    cases c with
    | tests which =>
      refine ⟨?_, ?_, ?_, ?_⟩
      · simp [LogSetting.apply, Logger.logTests]
      · simpa [LogSetting.apply, Logger.logTests] using ih.2.1
      · simpa [LogSetting.apply, Logger.logTests] using ih.2.2.1
      · simpa [LogSetting.apply, Logger.logTests] using ih.2.2.2
    | products ps =>
      refine ⟨?_, ?_, ?_, ?_⟩
      · simpa [LogSetting.apply, Logger.logProducts] using ih.1
      · simp [LogSetting.apply, Logger.logProducts]
      · simp [LogSetting.apply, Logger.logProducts]
      · simpa [LogSetting.apply, Logger.logProducts] using ih.2.2.2

example : lastTests [.tests .all, .products [2], .tests .no] = some .no ∧ lastProducts [.tests .all, .products [2], .tests .no] = some [2] := by
  decide

end Verif
