import Verif.Props.DataSource

/-!
# C27, C62: what the SPARQL server is asked
-/

namespace Verif

/-- How a value is written in the query (specification): an open position is the variable of its column, a text in an `id` column is a
resource, in a `constant` column it is copied, in other columns it is a text in the language; other values are printed. -/
inductive TermText (lang : List Char) (vtext : List Char) (column : Option String) : Value → List Char → Prop
  | unbound : TermText lang vtext column .none vtext
  | id (s : String) (h : column = some "id") : TermText lang vtext column (.str s) ('<' :: s.toList ++ ['>'])
  | const (s : String) (h : column = some "constant") : TermText lang vtext column (.str s) s.toList
  | text (s : String) (h : ∃ c, column = some c ∧ c ≠ "id" ∧ c ≠ "constant") :
      TermText lang vtext column (.str s) ('\'' :: s.toList ++ '\'' :: '@' :: lang)
  | other (v : Value) (h1 : v ≠ .none) (h2 : ∀ s, v ≠ .str s) : TermText lang vtext column v (reprV v)

/-- The variable of the first column. -/
def var0 : List Char := ['?', 't', 'e', 'r', 'm', '0']
/-- The variable of the second column. -/
def var1 : List Char := ['?', 't', 'e', 'r', 'm', '1']

/-- The variables that are asked for (specification). -/
def askedFor (v0 v1 : Value) : List Char :=
  if v0 = .none then (if v1 = .none then var0 ++ ' ' :: var1 else var0) else if v1 = .none then var1 else ['*']

/-- The condition on the language of the variable in an open text column, and nothing for other columns (specification). -/
def languageFilter (lang vtext : List Char) (v : Value) (column : Option String) : List Char :=
  if v = .none ∧ column = some "text" then
    [' ', 'F', 'I', 'L', 'T', 'E', 'R', '(', 'L', 'A', 'N', 'G', '('] ++ vtext ++ [')', ' ', '=', ' ', '"'] ++ lang ++ ['"', ')', ' ', '.', ' ']
  else []

/-- The text of the query (specification). -/
def Question (lang : List Char) (r : SparqlRequest) (v0 v1 : Value) (text : List Char) : Prop :=
  ∃ t0 t1, TermText lang var0 r.columns[0]? v0 t0 ∧ TermText lang var1 r.columns[1]? v1 t1 ∧
    text = [' ', 'S', 'E', 'L', 'E', 'C', 'T', ' '] ++ askedFor v0 v1 ++ [' ', 'W', 'H', 'E', 'R', 'E', ' ', '{', ' '] ++ t0 ++ [' ']
      ++ r.table.toList ++ [' '] ++ t1 ++ [' ', '.', ' '] ++ languageFilter lang var0 v0 r.columns[0]?
      ++ languageFilter lang var1 v1 r.columns[1]? ++ [' ', '}', ' ']

theorem prepareTerm_text {lang : List Char} {v : Value} {i : Nat} {columns : List String} {t vtext : List Char}
    (hv : vtext = termPrefix ++ showNat i) (h : prepareTerm lang v i columns = .ok t) : TermText lang vtext columns[i]? v t := by
  cases v with
  | none => simp only [prepareTerm, Except.ok.injEq] at h; rw [← h, ← hv]; exact .unbound
  | str s =>
    simp only [prepareTerm] at h
    obtain ⟨c, hc, h⟩ := except_bind_ok h
    have hc' : columns[i]? = some c := by
      unfold idx at hc
      split at hc
      · rename_i x hx; simp only [Except.ok.injEq] at hc; rw [hx, hc]
      · simp at hc
    split at h
    · rename_i e; simp only [Except.ok.injEq] at h; rw [← h]; exact .id s (by rw [hc', e])
    · rename_i e1
      split at h
      · rename_i e; simp only [Except.ok.injEq] at h; rw [← h]; exact .const s (by rw [hc', e])
      · rename_i e2
        simp only [Except.ok.injEq] at h; rw [← h]
        have := TermText.text (lang := lang) (vtext := vtext) (column := columns[i]?) s ⟨c, hc', e1, e2⟩
        simpa using this
  | num q => simp only [prepareTerm, Except.ok.injEq] at h; rw [← h]; exact .other _ (by simp) (by simp)
  | var x => simp only [prepareTerm, Except.ok.injEq] at h; rw [← h]; exact .other _ (by simp) (by simp)
  | rvar x => simp only [prepareTerm, Except.ok.injEq] at h; rw [← h]; exact .other _ (by simp) (by simp)
  | list x => simp only [prepareTerm, Except.ok.injEq] at h; rw [← h]; exact .other _ (by simp) (by simp)
  | tuple x => simp only [prepareTerm, Except.ok.injEq] at h; rw [← h]; exact .other _ (by simp) (by simp)
  | tmpl x y => simp only [prepareTerm, Except.ok.injEq] at h; rw [← h]; exact .other _ (by simp) (by simp)

theorem var0_eq : var0 = termPrefix ++ showNat 0 := by decide +kernel
theorem var1_eq : var1 = termPrefix ++ showNat 1 := by decide +kernel

theorem textVariable_ok {v : Value} {t : List Char} {columns : List String} {i : Nat} {r : List (List Char)}
    (h : textVariable v t columns i = .ok r) : r = if v = .none ∧ columns[i]? = some "text" then [t] else [] := by
  unfold textVariable at h
  split at h
  · rename_i hv
    obtain ⟨c, hc, h⟩ := except_bind_ok h
    have hc' : columns[i]? = some c := by
      unfold idx at hc
      split at hc
      · rename_i x hx; simp only [Except.ok.injEq] at hc; rw [hx, hc]
      · simp at hc
    simp only [Except.ok.injEq] at h
    rw [← h, hc']
    simp [hv]
  · rename_i hv
    simp only [Except.ok.injEq] at h
    simp [← h, hv]

theorem prepareTerm_none {lang : List Char} {i : Nat} {columns : List String} {t : List Char}
    (h : prepareTerm lang .none i columns = .ok t) : t = termPrefix ++ showNat i := by
  simp only [prepareTerm, Except.ok.injEq] at h; exact h.symm

theorem createQuery_question {lang : List Char} {r : SparqlRequest} {v0 v1 : Value} {t0 t1 : List Char} {tv : List (List Char)}
    (h0 : prepareTerm lang v0 0 r.columns = .ok t0) (h1 : prepareTerm lang v1 1 r.columns = .ok t1)
    (hv : prepareTextVariables v0 v1 t0 t1 r.columns = .ok tv) :
    Question lang r v0 v1 (createQuery lang (prepareVariables v0 v1 t0 t1) tv t0 t1 r.table.toList) := by
  refine ⟨t0, t1, prepareTerm_text var0_eq h0, prepareTerm_text var1_eq h1, ?_⟩
  unfold prepareTextVariables at hv
  obtain ⟨a, ha, hv⟩ := except_bind_ok hv
  obtain ⟨b, hb, hv⟩ := except_bind_ok hv
  simp only [Except.ok.injEq] at hv
  subst hv
  have ha' := textVariable_ok ha
  have hb' := textVariable_ok hb
  subst ha' hb'
  have e0 : v0 = .none → t0 = var0 := fun e => by subst e; rw [prepareTerm_none h0, var0_eq]
  have e1 : v1 = .none → t1 = var1 := fun e => by subst e; rw [prepareTerm_none h1, var1_eq]
  have s1 : " SELECT ".toList = [' ', 'S', 'E', 'L', 'E', 'C', 'T', ' '] := by decide +kernel
  have s2 : " WHERE { ".toList = [' ', 'W', 'H', 'E', 'R', 'E', ' ', '{', ' '] := by decide +kernel
  have s3 : " . ".toList = [' ', '.', ' '] := by decide +kernel
  have s4 : " } ".toList = [' ', '}', ' '] := by decide +kernel
  have s5 : " FILTER(LANG(".toList = [' ', 'F', 'I', 'L', 'T', 'E', 'R', '(', 'L', 'A', 'N', 'G', '('] := by decide +kernel
  have s6 : ") = \"".toList = [')', ' ', '=', ' ', '"'] := by decide +kernel
  have s7 : "\") . ".toList = ['"', ')', ' ', '.', ' '] := by decide +kernel
  have hvars : joinWith [' '] (prepareVariables v0 v1 t0 t1) = askedFor v0 v1 := by
    unfold prepareVariables askedFor
    by_cases c0 : v0 = .none <;> by_cases c1 : v1 = .none <;> simp [c0, c1, joinWith, e0, e1]
  have hfil : (List.map (fun v => " FILTER(LANG(".toList ++ v ++ ") = \"".toList ++ lang ++ "\") . ".toList)
      ((if v0 = .none ∧ r.columns[0]? = some "text" then [t0] else []) ++
        if v1 = .none ∧ r.columns[1]? = some "text" then [t1] else [])).flatten =
      languageFilter lang var0 v0 r.columns[0]? ++ languageFilter lang var1 v1 r.columns[1]? := by
    rw [s5, s6, s7]
    unfold languageFilter
    by_cases c0 : v0 = .none ∧ r.columns[0]? = some "text" <;> by_cases c1 : v1 = .none ∧ r.columns[1]? = some "text"
    · rw [if_pos c0, if_pos c1, if_pos c0, if_pos c1, e0 c0.1, e1 c1.1]; simp
    · rw [if_pos c0, if_neg c1, if_pos c0, if_neg c1, e0 c0.1]; simp
    · rw [if_neg c0, if_pos c1, if_neg c0, if_pos c1, e1 c1.1]; simp
    · rw [if_neg c0, if_neg c1, if_neg c0, if_neg c1]; simp
  unfold createQuery
  dsimp only
  rw [hfil, hvars, s1, s2, s3, s4]
  simp only [List.append_assoc]

/-- **C27** If a select succeeds, the server was asked the question about the two values of the request, with the language filter exactly
on the open text columns, and the rows are those of the answer to that question. -/
theorem C27_question (lang : List Char) (http : List Char → HttpResponse) (r : SparqlRequest) {rows : List (List Value)}
    (h : doSelect lang http r = .ok rows) :
    ∃ v0 v1 rest text items, r.values = v0 :: v1 :: rest ∧ Question lang r v0 v1 text ∧
      (http text).status ∉ [400, 403, 429] ∧ (http text).bindings = some items ∧ RowsSpec v0 v1 items rows := by
  unfold doSelect at h
  obtain ⟨v0, e0, h⟩ := except_bind_ok h
  obtain ⟨t0, ht0, h⟩ := except_bind_ok h
  obtain ⟨v1, e1, h⟩ := except_bind_ok h
  obtain ⟨t1, ht1, h⟩ := except_bind_ok h
  obtain ⟨tv, htv, h⟩ := except_bind_ok h
  have hvals : ∃ rest, r.values = v0 :: v1 :: rest := by
    cases hv : r.values with
    | nil => rw [hv] at e0; simp [idx] at e0
    | cons a as =>
      cases as with
      | nil => rw [hv] at e1; simp [idx] at e1
      | cons b bs =>
        rw [hv] at e0 e1
        simp only [idx, List.getElem?_cons_zero, Except.ok.injEq] at e0
        simp only [idx, List.getElem?_cons_succ, List.getElem?_cons_zero, Except.ok.injEq] at e1
        exact ⟨bs, by rw [e0, e1]⟩
  obtain ⟨rest, hvals⟩ := hvals
  dsimp only at h
  split at h
  · simp at h
  · rename_i n1
    split at h
    · simp at h
    · rename_i n2
      split at h
      · simp at h
      · rename_i n3
        split at h
        · simp at h
        · rename_i items hitems
          exact ⟨v0, v1, rest, _, items, hvals, createQuery_question ht0 ht1 htv, by simp [n1, n2, n3], hitems, prepareResults_spec ht0 ht1 h⟩

/-- **C27** A refused request raises: the statuses 403, 429 and 400 are exceptions, whatever the server sends along. -/
theorem C27_refused (lang : List Char) (http : List Char → HttpResponse) (r : SparqlRequest)
    (hs : ∀ text, (http text).status ∈ [400, 403, 429]) : ∃ e, doSelect lang http r = .error e := by
  cases h : doSelect lang http r with
  | error e => exact ⟨e, rfl⟩
  | ok rows =>
    obtain ⟨_, _, _, text, _, _, _, hn, _⟩ := C27_question lang http r h
    exact absurd (hs text) hn

example : Question ['e', 'n'] ⟨"rdfs:label", ["id", "text"], [.str "q42", .none]⟩ (.str "q42") .none
    (" SELECT ?term1 WHERE { <q42> rdfs:label ?term1 .  FILTER(LANG(?term1) = \"en\") .  } ".toList) :=
  ⟨_, _, .id _ rfl, .unbound, by decide +kernel⟩

/-! ## C62 -/

theorem append_cons_inj {α : Type} {c : α} {a b x y : List α} (ha : c ∉ a) (hb : c ∉ b) (h : a ++ c :: x = b ++ c :: y) : a = b ∧ x = y := by
  induction a generalizing b with
  | nil =>
    cases b with
    | nil => simpa using h
    | cons d b =>
      simp only [List.nil_append, List.cons_append, List.cons.injEq] at h
      exact absurd (by simp [h.1]) hb
  | cons d a ih =>
    cases b with
    | nil =>
      simp only [List.nil_append, List.cons_append, List.cons.injEq] at h
      exact absurd (by simp [h.1]) ha
    | cons e b =>
      simp only [List.cons_append, List.cons.injEq] at h
      obtain ⟨h1, h2⟩ := ih (by simp at ha; exact ha.2) (by simp at hb; exact hb.2) h.2
      exact ⟨by rw [h.1, h1], h2⟩

/-- A value that its column can hold without breaking the query: open, a text without the character that ends it, or a number where it
cannot be taken for a text. -/
inductive Quotable (column : Option String) : Value → Prop
  | unbound : Quotable column .none
  | id (s : String) (h : column = some "id") (hs : '>' ∉ s.toList) : Quotable column (.str s)
  | const (s : String) (h : column = some "constant") (hs : ' ' ∉ s.toList) : Quotable column (.str s)
  | text (s : String) (h : ∃ c, column = some c ∧ c ≠ "id" ∧ c ≠ "constant") (hs : '\'' ∉ s.toList) : Quotable column (.str s)
  | num (q : Rat) (h : column ≠ some "constant") : Quotable column (.num q)

/-- The first character of a printed number is not that of a written text. -/
theorem reprNum_head (q : Rat) (x : List Char) {c : Char} (hc : c = '<' ∨ c = '\'') (y : List Char) : reprNum q ++ x ≠ c :: y := by
  intro h
  have hne : reprNum q ≠ [] := by
    unfold reprNum
    intro e
    have := (List.append_eq_nil_iff.1 e).1
    unfold showInt at this
    split at this
    · simp at this
    · exact showNat_ne_nil _ this
  cases hr : reprNum q with
  | nil => exact hne hr
  | cons d ds =>
    have hd := reprNum_chars q d (by rw [hr]; simp)
    rw [hr] at h
    simp only [List.cons_append, List.cons.injEq] at h
    rw [h.1] at hd
    rcases hc with rfl | rfl <;> revert hd <;> decide

/-- The written number, followed by a space, determines the number. -/
theorem reprNum_space {q q' : Rat} {x y : List Char} (h : reprNum q ++ ' ' :: x = reprNum q' ++ ' ' :: y) : q = q' ∧ x = y := by
  have hs : ∀ q : Rat, ' ' ∉ reprNum q := fun q hm => by
    have := reprNum_chars q _ hm
    revert this; decide
  obtain ⟨h1, h2⟩ := append_cons_inj (hs q) (hs q') h
  exact ⟨reprNum_injective h1, h2⟩

/-- The written value, followed by a space, determines the value. -/
theorem termText_inj {lang vtext : List Char} {column : Option String} {v v' : Value} {t t' x y : List Char}
    (hn : v = .none ↔ v' = .none) (q : Quotable column v) (q' : Quotable column v') (h : TermText lang vtext column v t)
    (h' : TermText lang vtext column v' t') (e : t ++ ' ' :: x = t' ++ ' ' :: y) : v = v' ∧ x = y := by
  cases h with
  | unbound =>
    have hv' := hn.1 rfl
    subst hv'
    cases h' with
    | unbound => exact ⟨rfl, by simpa using e⟩
    | other _ h1 _ => exact absurd rfl h1
  | id s hc =>
    cases h' with
    | unbound => simp at hn
    | id s' hc' =>
      have hs : '>' ∉ s.toList := by
        cases q with
        | id _ _ hs => exact hs
        | const _ h _ => rw [hc] at h; simp at h
        | text _ h _ => obtain ⟨c, h, h1, _⟩ := h; rw [hc] at h; simp at h; exact absurd h.symm h1
      have hs' : '>' ∉ s'.toList := by
        cases q' with
        | id _ _ hs => exact hs
        | const _ h _ => rw [hc] at h; simp at h
        | text _ h _ => obtain ⟨c, h, h1, _⟩ := h; rw [hc] at h; simp at h; exact absurd h.symm h1
      simp only [List.cons_append, List.append_assoc, List.nil_append, List.cons.injEq, true_and] at e
      obtain ⟨e1, e2⟩ := append_cons_inj hs hs' e
      simp only [List.cons.injEq, true_and] at e2
      exact ⟨by rw [String.toList_injective e1], e2⟩
    | const _ h => rw [hc] at h; simp at h
    | text _ h => obtain ⟨c, h, h1, _⟩ := h; rw [hc] at h; simp at h; exact absurd h.symm h1
    | other _ h1 h2 =>
      cases q' with
      | unbound => exact absurd rfl h1
      | id _ _ _ => exact absurd rfl (h2 _)
      | const _ _ _ => exact absurd rfl (h2 _)
      | text _ _ _ => exact absurd rfl (h2 _)
      | num n hcol => exact absurd e.symm (by rw [List.cons_append, List.cons_append]; exact reprNum_head _ _ (Or.inl rfl) _)
  | const s hc =>
    cases h' with
    | unbound => simp at hn
    | id _ h => rw [hc] at h; simp at h
    | const s' hc' =>
      have hs : ' ' ∉ s.toList := by
        cases q with
        | id _ h _ => rw [hc] at h; simp at h
        | const _ _ hs => exact hs
        | text _ h _ => obtain ⟨c, h, _, h1⟩ := h; rw [hc] at h; simp at h; exact absurd h.symm h1
      have hs' : ' ' ∉ s'.toList := by
        cases q' with
        | id _ h _ => rw [hc] at h; simp at h
        | const _ _ hs => exact hs
        | text _ h _ => obtain ⟨c, h, _, h1⟩ := h; rw [hc] at h; simp at h; exact absurd h.symm h1
      obtain ⟨e1, e2⟩ := append_cons_inj hs hs' e
      exact ⟨by rw [String.toList_injective e1], e2⟩
    | text _ h => obtain ⟨c, h, _, h1⟩ := h; rw [hc] at h; simp at h; exact absurd h.symm h1
    | other _ h1 h2 =>
      cases q' with
      | unbound => exact absurd rfl h1
      | id _ _ _ => exact absurd rfl (h2 _)
      | const _ _ _ => exact absurd rfl (h2 _)
      | text _ _ _ => exact absurd rfl (h2 _)
      | num n hcol => exact absurd hc hcol
  | text s hc =>
    obtain ⟨c, hc, n1, n2⟩ := hc
    cases h' with
    | unbound => simp at hn
    | id _ h => rw [hc] at h; simp at h; exact absurd h n1
    | const _ h => rw [hc] at h; simp at h; exact absurd h n2
    | text s' hc' =>
      have hs : '\'' ∉ s.toList := by
        cases q with
        | id _ h _ => rw [hc] at h; simp at h; exact absurd h n1
        | const _ h _ => rw [hc] at h; simp at h; exact absurd h n2
        | text _ _ hs => exact hs
      have hs' : '\'' ∉ s'.toList := by
        cases q' with
        | id _ h _ => rw [hc] at h; simp at h; exact absurd h n1
        | const _ h _ => rw [hc] at h; simp at h; exact absurd h n2
        | text _ _ hs => exact hs
      simp only [List.cons_append, List.append_assoc, List.cons.injEq, true_and] at e
      obtain ⟨e1, e2⟩ := append_cons_inj hs hs' e
      simp only [List.cons.injEq, true_and, List.append_cancel_left_eq] at e2
      exact ⟨by rw [String.toList_injective e1], e2⟩
    | other _ h1 h2 =>
      cases q' with
      | unbound => exact absurd rfl h1
      | id _ _ _ => exact absurd rfl (h2 _)
      | const _ _ _ => exact absurd rfl (h2 _)
      | text _ _ _ => exact absurd rfl (h2 _)
      | num n hcol => exact absurd e.symm (by rw [List.cons_append, List.cons_append]; exact reprNum_head _ _ (Or.inr rfl) _)
  | other _ h1 h2 =>
    cases q with
    | unbound => exact absurd rfl h1
    | id _ _ _ => exact absurd rfl (h2 _)
    | const _ _ _ => exact absurd rfl (h2 _)
    | text _ _ _ => exact absurd rfl (h2 _)
    | num n hcol =>
      cases h' with
      | unbound => simp at hn
      | id _ _ => exact absurd e (by rw [List.cons_append, List.cons_append]; exact reprNum_head _ _ (Or.inl rfl) _)
      | const _ hc => exact absurd hc hcol
      | text _ _ => exact absurd e (by rw [List.cons_append, List.cons_append]; exact reprNum_head _ _ (Or.inr rfl) _)
      | other _ h1' h2' =>
        cases q' with
        | unbound => exact absurd rfl h1'
        | id _ _ _ => exact absurd rfl (h2' _)
        | const _ _ _ => exact absurd rfl (h2' _)
        | text _ _ _ => exact absurd rfl (h2' _)
        | num n' hcol' =>
          obtain ⟨e1, e2⟩ := reprNum_space e
          exact ⟨by rw [e1], e2⟩

/-- **C62** (part) Requests for the same table and columns that ask the same question have the same values, if the texts do not contain
the character that ends them in the query and numbers are not in `constant` columns. Missing: texts with a quote, see `C62_injection`;
numbers in `constant` columns, see `C62_number_or_text`. -/
theorem C62_question_determines_values_partial {lang : List Char} {r : SparqlRequest} {v0 v1 u0 u1 : Value} {text : List Char}
    (q0 : Quotable r.columns[0]? v0) (q1 : Quotable r.columns[1]? v1) (p0 : Quotable r.columns[0]? u0) (p1 : Quotable r.columns[1]? u1)
    (h : Question lang r v0 v1 text) (h' : Question lang r u0 u1 text) : v0 = u0 ∧ v1 = u1 := by
  obtain ⟨t0, t1, a0, a1, e⟩ := h
  obtain ⟨s0, s1, b0, b1, e'⟩ := h'
  rw [e] at e'
  simp only [List.append_assoc, List.cons_append, List.nil_append, List.cons.injEq, true_and] at e'
  have key : (v0 = .none ↔ u0 = .none) ∧ (v1 = .none ↔ u1 = .none) ∧ askedFor v0 v1 = askedFor u0 u1 := by
    unfold askedFor at e'
    by_cases c0 : v0 = .none <;> by_cases c1 : v1 = .none <;> by_cases d0 : u0 = .none <;> by_cases d1 : u1 = .none <;>
      simp [c0, c1, d0, d1, var0, var1] at e' <;> simp [c0, c1, d0, d1, askedFor]
  obtain ⟨k0, k1, k2⟩ := key
  rw [k2] at e'
  simp only [List.append_cancel_left_eq, List.cons.injEq, true_and] at e'
  obtain ⟨r0, e2⟩ := termText_inj k0 q0 p0 a0 b0 e'
  simp only [List.append_cancel_left_eq, List.cons.injEq, true_and] at e2
  exact ⟨r0, (termText_inj k1 q1 p1 a1 b1 e2).1⟩

example : Quotable (some "text") (.str "Byron") ∧ Quotable (some "id") (.str "http://www.wikidata.org/entity/Q42") ∧
    Quotable (some "id") .none ∧ Quotable (some "number") (.num 12) :=
  ⟨.text _ ⟨_, rfl, by decide, by decide⟩ (by decide +kernel), .id _ rfl (by decide +kernel), .unbound, .num _ (by decide)⟩

/-- **C62** False as stated: a quote in a text is not escaped, so that two different requests ask the same question. -/
theorem C62_injection : ∃ (r : SparqlRequest) (v0 v1 u0 u1 : Value) (text : List Char), v0 ≠ u0 ∧ v1 ≠ u1 ∧
    Question ['e', 'n'] r v0 v1 text ∧ Question ['e', 'n'] r u0 u1 text := by
  refine ⟨⟨"p", ["text", "text"], []⟩, .str "a", .str "b'@en p 'c", .str "a'@en p 'b", .str "c",
    " SELECT * WHERE { 'a'@en p 'b'@en p 'c'@en .  } ".toList, by decide, by decide, ?_, ?_⟩
  · exact ⟨_, _, .text _ ⟨_, rfl, by decide, by decide⟩, .text _ ⟨_, rfl, by decide, by decide⟩, by decide +kernel⟩
  · exact ⟨_, _, .text _ ⟨_, rfl, by decide, by decide⟩, .text _ ⟨_, rfl, by decide, by decide⟩, by decide +kernel⟩

/-- **C62** False as stated: in a `constant` column the number 5 and the text 5 ask the same question. -/
theorem C62_number_or_text : ∃ (r : SparqlRequest) (v0 v1 u1 : Value) (text : List Char), v1 ≠ u1 ∧
    Question ['e', 'n'] r v0 v1 text ∧ Question ['e', 'n'] r v0 u1 text :=
  ⟨⟨"p", ["id", "constant"], []⟩, .none, .num 5, .str "5", " SELECT ?term0 WHERE { ?term0 p 5 .  } ".toList, by decide,
    ⟨_, _, .unbound, .other _ (by decide) (by simp), by decide +kernel⟩, ⟨_, _, .unbound, .const _ rfl, by decide +kernel⟩⟩

end Verif
