import Verif.Logging
import Verif.ReprLemmas

/-!
# C82: printed meanings

`format_value` is used for the meanings in the log. The specification is that the text determines the value.
-/

namespace Verif

/-- Numbers, variables and `None` (specification). -/
def Value.isBare : Value → Bool
  | .none => true
  | .num _ => true
  | .var _ => true
  | _ => false

mutual
/-- Values whose printed form is clear (specification): texts without apostrophes, legal names, and lists of tuples, lists and texts only. Reified variables
and templates are left out. -/
def neat : Value → Prop
  | .none => True
  | .num _ => True
  | .str s => '\'' ∉ s.toList
  | .var n => legalName n = true
  | .rvar _ => False
  | .list xs => neatItems xs
  | .tuple xs => neatAll xs
  | .tmpl _ _ => False
@[inherit_doc neat] def neatAll : List Value → Prop
  | [] => True
  | x :: xs => neat x ∧ neatAll xs
@[inherit_doc neat] def neatItems : List Value → Prop
  | [] => True
  | x :: xs => x.isBare = false ∧ neat x ∧ neatItems xs
end

/-- The characters of bare values. -/
def bareChar (c : Char) : Bool := nameChar c || numChar c

/-- An indentation. -/
def indentOf (k : Nat) : Str := '\n' :: List.replicate k ' '

theorem indentOf_add (k : Nat) : indentOf k ++ [' ', ' ', ' ', ' '] = indentOf (k + 4) := by
  have : [' ', ' ', ' ', ' '] = List.replicate 4 ' ' := rfl
  rw [this, indentOf, List.cons_append, List.replicate_append_replicate]; rfl

theorem indentOf_add' (k : Nat) : indentOf (k + 4) = indentOf k ++ ' ' :: [' ', ' ', ' '] := (indentOf_add k).symm

/-- What follows a bare value. -/
def Stops (r : Str) : Prop := StopsAt bareChar r

theorem bare_format {v : Value} (hv : v.isBare = true) (i : Str) : formatValue v i = reprV v := by
  cases v <;> simp_all [Value.isBare, formatValue]

theorem bare_legal {v : Value} (hv : v.isBare = true) (hn : neat v) : legal v = true := by
  cases v <;> simp_all [Value.isBare, neat, legal]

theorem bare_chars {v : Value} (hv : v.isBare = true) (hn : neat v) : ∀ c ∈ reprV v, bareChar c = true := by
  cases v with
  | none => simp only [reprV]; decide
  | num q => intro c hc; simp [bareChar, reprNum_chars q c hc]
  | var n =>
    intro c hc
    simp [bareChar, (legalName_spec hn).2.1 c hc]
  | _ => simp [Value.isBare] at hv

theorem bare_head {v : Value} (hv : v.isBare = true) (hn : neat v) (i r : Str) :
    ∃ c cs, formatValue v i ++ r = c :: cs ∧ bareChar c = true := by
  obtain ⟨c, cs, h, _⟩ := reprV_head v (bare_legal hv hn)
  refine ⟨c, cs ++ r, by rw [bare_format hv, h]; rfl, bare_chars hv hn c (by rw [h]; simp)⟩

theorem bare_unique {v v' : Value} {i r r' : Str} (hv : v.isBare = true) (hn : neat v) (hv' : v'.isBare = true) (hn' : neat v')
    (hr : Stops r) (hr' : Stops r') (h : formatValue v i ++ r = formatValue v' i ++ r') : v = v' ∧ r = r' := by
  rw [bare_format hv, bare_format hv'] at h
  obtain ⟨h1, h2⟩ := split_unique (bare_chars hv hn) (bare_chars hv' hn') hr hr' h
  have : strRow [v] = strRow [v'] := by simp [strRow, reprItems, h1]
  have := strRow_injective (a := [v]) (b := [v']) (by simp [legalList, bare_legal hv hn]) (by simp [legalList, bare_legal hv' hn']) this
  simp only [List.cons.injEq, and_true] at this
  exact ⟨this, h2⟩

/-- The first character of a value that is not bare. -/
theorem full_head {v : Value} (hv : v.isBare = false) (hn : neat v) (k : Nat) (r : Str) :
    (∃ cs, formatValue v (indentOf k) ++ r = '\'' :: cs ∧ ∃ s, v = .str s) ∨
    (∃ cs, formatValue v (indentOf k) ++ r = indentOf k ++ '(' :: cs ∧ ∃ xs, v = .tuple xs) ∨
    (∃ cs, formatValue v (indentOf k) ++ r = indentOf k ++ '[' :: cs ∧ ∃ xs, v = .list xs) := by
  cases v with
  | str s => exact .inl ⟨s.toList ++ '\'' :: r, by simp [formatValue], _, rfl⟩
  | tuple xs => exact .inr (.inl ⟨formatTuple xs (indentOf k ++ [' ', ' ', ' ', ' ']) ++ ')' :: r, by simp [formatValue], _, rfl⟩)
  | list xs => exact .inr (.inr ⟨formatList xs (indentOf k ++ [' ', ' ', ' ', ' ']) ++ indentOf k ++ ']' :: r, by simp [formatValue], _, rfl⟩)
  | rvar _ => exact absurd hn (by simp [neat])
  | tmpl _ _ => exact absurd hn (by simp [neat])
  | _ => simp [Value.isBare] at hv

theorem bare_full {v v' : Value} {k : Nat} {r r' : Str} (hv : v.isBare = true) (hn : neat v) (hv' : v'.isBare = false) (hn' : neat v')
    (h : formatValue v (indentOf k) ++ r = formatValue v' (indentOf k) ++ r') : False := by
  obtain ⟨c, cs, h1, hc⟩ := bare_head hv hn (indentOf k) r
  rw [h1] at h
  rcases full_head hv' hn' k r' with ⟨ds, h2, _⟩ | ⟨ds, h2, _⟩ | ⟨ds, h2, _⟩ <;> rw [h2] at h <;>
    simp only [indentOf, List.cons_append, List.cons.injEq] at h <;> rw [h.1] at hc <;> exact absurd hc (by decide)

/-- No value starts as a tuple ends. -/
theorem format_ne_close {v : Value} (hn : neat v) (k : Nat) (r r' : Str) : formatValue v (indentOf k) ++ r ≠ ')' :: r' := by
  intro h
  cases hv : v.isBare with
  | true =>
    obtain ⟨c, cs, h1, hc⟩ := bare_head hv hn (indentOf k) r
    rw [h1] at h
    simp only [List.cons.injEq] at h
    rw [h.1] at hc
    exact absurd hc (by decide)
  | false =>
    rcases full_head hv hn k r with ⟨ds, h2, _⟩ | ⟨ds, h2, _⟩ | ⟨ds, h2, _⟩ <;> rw [h2] at h <;> simp [indentOf] at h

/-- No element of a list starts as the list ends. -/
theorem format_ne_end {v : Value} (hv : v.isBare = false) (hn : neat v) (k : Nat) (r r' : Str) :
    formatValue v (indentOf (k + 4)) ++ r ≠ indentOf k ++ ']' :: r' := by
  intro h
  rcases full_head hv hn (k + 4) r with ⟨ds, h2, _⟩ | ⟨ds, h2, _⟩ | ⟨ds, h2, _⟩ <;> rw [h2] at h
  · simp [indentOf] at h
  · rw [indentOf_add', List.append_assoc] at h
    have := List.append_cancel_left h
    simp at this
  · rw [indentOf_add', List.append_assoc] at h
    have := List.append_cancel_left h
    simp at this

/-- The rest of a tuple after an element. -/
def tupleRest (vs : List Value) (i : Str) : Str := match vs with
  | [] => []
  | _ :: _ => [',', ' '] ++ formatTuple vs i

theorem formatTuple_cons (v : Value) (vs : List Value) (i : Str) : formatTuple (v :: vs) i = formatValue v i ++ tupleRest vs i := by
  cases vs <;> rfl

theorem tupleRest_stops (vs : List Value) (i r : Str) : Stops (tupleRest vs i ++ ')' :: r) := by
  cases vs <;> simp only [tupleRest, List.nil_append, List.cons_append, Stops, StopsAt] <;> decide

mutual
theorem formatValue_unique : ∀ (v v' : Value) (k : Nat) (r r' : Str), neat v → neat v' → (v.isBare = true → Stops r) → (v'.isBare = true → Stops r') →
    formatValue v (indentOf k) ++ r = formatValue v' (indentOf k) ++ r' → v = v' ∧ r = r'
  | .none, v', k, r, r', hn, hn', hr, hr', h => by
    cases hv : v'.isBare with
    | true => exact bare_unique rfl hn hv hn' (hr rfl) (hr' hv) h
    | false => exact (bare_full rfl hn hv hn' h).elim
  | .num q, v', k, r, r', hn, hn', hr, hr', h => by
    cases hv : v'.isBare with
    | true => exact bare_unique rfl hn hv hn' (hr rfl) (hr' hv) h
    | false => exact (bare_full rfl hn hv hn' h).elim
  | .var n, v', k, r, r', hn, hn', hr, hr', h => by
    cases hv : v'.isBare with
    | true => exact bare_unique rfl hn hv hn' (hr rfl) (hr' hv) h
    | false => exact (bare_full rfl hn hv hn' h).elim
  | .rvar _, _, _, _, _, hn, _, _, _, _ => absurd hn (by simp [neat])
  | .tmpl _ _, _, _, _, _, hn, _, _, _, _ => absurd hn (by simp [neat])
  | .str s, v', k, r, r', hn, hn', _, _, h => by
    cases hv : v'.isBare with
    | true => exact (bare_full hv hn' rfl hn h.symm).elim
    | false =>
      rcases full_head hv hn' k r' with ⟨ds, h2, t, rfl⟩ | ⟨ds, h2, _⟩ | ⟨ds, h2, _⟩
      · simp only [formatValue, List.append_assoc, List.cons_append, List.nil_append, List.cons.injEq, true_and] at h
        have ok : ∀ {u : String}, '\'' ∉ u.toList → ∀ c ∈ u.toList, (c != '\'') = true := by
          intro u hu c hc
          simp only [bne_iff_ne, ne_eq]
          intro e; exact hu (e ▸ hc)
        obtain ⟨h3, h4⟩ := split_unique (p := fun c => c != '\'') (ok hn) (ok hn') (by simp [StopsAt]) (by simp [StopsAt]) h
        simp only [List.cons.injEq, true_and] at h4
        exact ⟨by rw [String.toList_inj.1 h3], h4⟩
      · rw [h2] at h; simp [formatValue, indentOf] at h
      · rw [h2] at h; simp [formatValue, indentOf] at h
  | .tuple xs, v', k, r, r', hn, hn', _, _, h => by
    cases hv : v'.isBare with
    | true => exact (bare_full hv hn' rfl hn h.symm).elim
    | false =>
      rcases full_head hv hn' k r' with ⟨ds, h2, _⟩ | ⟨ds, h2, ys, rfl⟩ | ⟨ds, h2, _⟩
      · rw [h2] at h; simp [formatValue, indentOf] at h
      · simp only [formatValue, List.append_assoc] at h
        have h := List.append_cancel_left h
        simp only [List.cons_append, List.nil_append, List.cons.injEq, true_and, indentOf_add] at h
        obtain ⟨h3, h4⟩ := formatTuple_unique xs ys (k + 4) r r' hn hn' h
        exact ⟨by rw [h3], h4⟩
      · rw [h2] at h
        simp only [formatValue, List.append_assoc] at h
        have h := List.append_cancel_left h
        simp at h
  | .list xs, v', k, r, r', hn, hn', _, _, h => by
    cases hv : v'.isBare with
    | true => exact (bare_full hv hn' rfl hn h.symm).elim
    | false =>
      rcases full_head hv hn' k r' with ⟨ds, h2, _⟩ | ⟨ds, h2, _⟩ | ⟨ds, h2, ys, rfl⟩
      · rw [h2] at h; simp [formatValue, indentOf] at h
      · rw [h2] at h
        simp only [formatValue, List.append_assoc] at h
        have h := List.append_cancel_left h
        simp at h
      · simp only [formatValue, List.append_assoc] at h
        have h := List.append_cancel_left h
        simp only [List.cons_append, List.nil_append, List.cons.injEq, true_and, indentOf_add] at h
        rw [← List.append_assoc, ← List.append_assoc] at h
        obtain ⟨h3, h4⟩ := formatList_unique xs ys k r r' hn hn' (by simpa using h)
        exact ⟨by rw [h3], h4⟩
theorem formatTuple_unique : ∀ (vs vs' : List Value) (k : Nat) (r r' : Str), neatAll vs → neatAll vs' →
    formatTuple vs (indentOf k) ++ ')' :: r = formatTuple vs' (indentOf k) ++ ')' :: r' → vs = vs' ∧ r = r'
  | [], [], _, _, _, _, _, h => ⟨rfl, by simpa [formatTuple] using h⟩
  | [], v' :: vs', k, r, r', _, hn', h => by
    rw [formatTuple_cons, List.append_assoc] at h
    exact absurd h.symm (format_ne_close hn'.1 k _ _)
  | v :: vs, [], k, r, r', hn, _, h => by
    rw [formatTuple_cons, List.append_assoc] at h
    exact absurd h (format_ne_close hn.1 k _ _)
  | v :: vs, v' :: vs', k, r, r', hn, hn', h => by
    rw [formatTuple_cons, formatTuple_cons, List.append_assoc, List.append_assoc] at h
    obtain ⟨h1, h2⟩ := formatValue_unique v v' k _ _ hn.1 hn'.1 (fun _ => tupleRest_stops _ _ _) (fun _ => tupleRest_stops _ _ _) h
    cases vs with
    | nil =>
      cases vs' with
      | nil => simp only [tupleRest, List.nil_append, List.cons.injEq, true_and] at h2; exact ⟨by rw [h1], h2⟩
      | cons _ _ => simp [tupleRest] at h2
    | cons u us =>
      cases vs' with
      | nil => simp [tupleRest] at h2
      | cons u' us' =>
        simp only [tupleRest, List.cons_append, List.nil_append, List.cons.injEq, true_and] at h2
        obtain ⟨h3, h4⟩ := formatTuple_unique (u :: us) (u' :: us') k r r' hn.2 hn'.2 h2
        exact ⟨by rw [h1, h3], h4⟩
theorem formatList_unique : ∀ (vs vs' : List Value) (k : Nat) (r r' : Str), neatItems vs → neatItems vs' →
    formatList vs (indentOf (k + 4)) ++ (indentOf k ++ ']' :: r) = formatList vs' (indentOf (k + 4)) ++ (indentOf k ++ ']' :: r') → vs = vs' ∧ r = r'
  | [], [], k, _, _, _, _, h => by
    simp only [formatList, List.nil_append] at h
    have h := List.append_cancel_left h
    exact ⟨rfl, by simpa using h⟩
  | [], v' :: vs', k, r, r', _, hn', h => by
    simp only [formatList, List.nil_append, List.append_assoc] at h
    exact absurd h.symm (format_ne_end hn'.1 hn'.2.1 k _ _)
  | v :: vs, [], k, r, r', hn, _, h => by
    simp only [formatList, List.nil_append, List.append_assoc] at h
    exact absurd h (format_ne_end hn.1 hn.2.1 k _ _)
  | v :: vs, v' :: vs', k, r, r', hn, hn', h => by
    simp only [formatList, List.append_assoc] at h
    obtain ⟨h1, h2⟩ := formatValue_unique v v' (k + 4) _ _ hn.2.1 hn'.2.1 (fun hb => by rw [hn.1] at hb; cases hb) (fun hb => by rw [hn'.1] at hb; cases hb) h
    obtain ⟨h3, h4⟩ := formatList_unique vs vs' k r r' hn.2.2 hn'.2.2 h2
    exact ⟨by rw [h1, h3], h4⟩
end

/-- **C82** (for values whose printed form is clear): what `format_value` prints determines the value.
Missing: the other values; `C82_list_of_numbers` and `C82_apostrophe` show that it is false for them. -/
theorem C82_determines_partial (v v' : Value) (hv : neat v) (hv' : neat v') (h : formatValue v ['\n'] = formatValue v' ['\n']) : v = v' :=
  (formatValue_unique v v' 0 [] [] hv hv' (fun _ => trivial) (fun _ => trivial) (by simpa [indentOf] using h)).1

/-- **C82**, finding: the elements of a list are printed without anything between them, so that lists of numbers are not told apart. -/
theorem C82_list_of_numbers : formatValue (.list [.num 1, .num 2]) ['\n'] = formatValue (.list [.num 12]) ['\n'] := by decide +kernel

/-- **C82**, finding: apostrophes in texts are not marked, so that one text is printed as two. -/
theorem C82_apostrophe : formatValue (.tuple [.str "a', 'b"]) ['\n'] = formatValue (.tuple [.str "a", .str "b"]) ['\n'] := by decide +kernel

/-- A meaning with a quantifier. -/
example : neat (.list [.tuple [.str "all", .var "E1", .list [.tuple [.str "parent", .var "$1", .num 3]], .list []], .tuple [.str "p", .none]]) := by
  simp [neat, neatItems, neatAll, Value.isBare, legalName, nameChar]

end Verif
