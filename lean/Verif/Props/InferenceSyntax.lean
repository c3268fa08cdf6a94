import Verif.InferenceSyntax

/-!
# C41: inference rules are read back as they were written
-/

namespace Verif

/-! ## The written form of rules -/

mutual
/-- A written term: a text between quotes `q`, a whole number, a number with decimals, a variable, or atoms between parentheses. -/
inductive PTerm where
  | str (q : Char) (s : Str)
  | int (n : Nat)
  | dec (n : Nat) (f : Str)
  | var (x : Str)
  | atoms (as : List PAtom)
/-- A written atom: a predicate with arguments, or alternatives. -/
inductive PAtom where
  | simple (p : Str) (args : List PTerm)
  | disj (ds : List (List PAtom))
end

/-- A written rule, after lines of comment. -/
structure PRule where
  comments : List Str
  p : Str
  args : List PTerm
  body : List PAtom

mutual
/-- The value meant by a term. -/
def PTerm.val : PTerm → Value
  | .str _ s => .str (String.ofList s)
  | .int n => .num (n : Rat)
  | .dec n f => .num ((n : Rat) + (readNat f : Rat) / ((10 ^ f.length : Nat) : Rat))
  | .var x => .var (String.ofList x)
  | .atoms as => .list (valAtoms as)
/-- The values meant by terms. -/
def valTerms : List PTerm → List Value
  | [] => []
  | t :: ts => t.val :: valTerms ts
/-- The atom meant. -/
def PAtom.val : PAtom → Value
  | .simple p args => .tuple (.str (String.ofList p) :: valTerms args)
  | .disj ds => .tuple [.str "$disjunction", .list (valDisj ds)]
/-- The atoms meant. -/
def valAtoms : List PAtom → List Value
  | [] => []
  | a :: as => a.val :: valAtoms as
/-- The alternatives meant. -/
def valDisj : List (List PAtom) → List Value
  | [] => []
  | as :: ds => .list (valAtoms as) :: valDisj ds
end

/-- The rule meant. -/
def PRule.val (r : PRule) : Rule := ⟨.str (String.ofList r.p) :: valTerms r.args, .list (valAtoms r.body)⟩

mutual
/-- The text of a term. -/
def PTerm.print : PTerm → Str
  | .str q s => q :: (escape q s ++ [q])
  | .int n => showNat n
  | .dec n f => showNat n ++ '.' :: f
  | .var x => x
  | .atoms as => '(' :: (printAtoms as ++ [')'])
/-- The text of the arguments of an atom. -/
def printTerms : List PTerm → Str
  | [] => []
  | [t] => t.print
  | t :: t2 :: ts => t.print ++ ',' :: ' ' :: printTerms (t2 :: ts)
/-- The text of an atom. -/
def PAtom.print : PAtom → Str
  | .simple p args => p ++ '(' :: (printTerms args ++ [')'])
  | .disj ds => '(' :: (printDisj ds ++ [')'])
/-- The text of atoms. -/
def printAtoms : List PAtom → Str
  | [] => []
  | [a] => a.print
  | a :: a2 :: as => a.print ++ ',' :: ' ' :: printAtoms (a2 :: as)
/-- The text of alternatives. -/
def printDisj : List (List PAtom) → Str
  | [] => []
  | [as] => printAtoms as
  | as :: as2 :: ds => printAtoms as ++ ' ' :: ';' :: ' ' :: printDisj (as2 :: ds)
end

/-- The text of lines of comment. -/
def printComments : List Str → Str
  | [] => []
  | c :: cs => '#' :: (c ++ '\n' :: printComments cs)

/-- The text of a rule. -/
def PRule.print (r : PRule) : Str :=
  printComments r.comments ++ (r.p ++ '(' :: (printTerms r.args ++ ')' ::
    (match r.body with
    | [] => ['.', '\n']
    | a :: as => ' ' :: ':' :: '-' :: ' ' :: (printAtoms (a :: as) ++ ['.', '\n']))))

/-- The text of rules. -/
def printRules : List PRule → Str
  | [] => []
  | r :: rs => r.print ++ printRules rs

section
variable (uni : Char → Bool)

/-- A predicate: letters, digits and underscores, not starting with a digit. -/
def PredOk (s : Str) : Prop := ∃ c r, s = c :: r ∧ c.isDigit = false ∧ ∀ c ∈ s, isWordChar uni c = true

/-- A variable: a name that starts with a capital. -/
def RVarOk (s : Str) : Prop := ∃ c r, s = c :: r ∧ c.isUpper = true ∧ ∀ c ∈ r, isWordChar uni c = true

mutual
/-- A term that can be written: texts stand between single or double quotes, are not empty and do not end in a backslash, numbers are not zero. -/
def PTerm.Ok : PTerm → Prop
  | .str q s => (q = '\'' ∨ q = '"') ∧ s ≠ [] ∧ s.getLast? ≠ some '\\'
  | .int n => n ≠ 0
  | .dec n f => f ≠ [] ∧ (∀ c ∈ f, c.isDigit = true) ∧ (n ≠ 0 ∨ readNat f ≠ 0)
  | .var x => RVarOk uni x
  | .atoms as => as ≠ [] ∧ OkAtoms as
/-- All terms can be written. -/
def OkTerms : List PTerm → Prop
  | [] => True
  | t :: ts => t.Ok ∧ OkTerms ts
/-- An atom that can be written: there are at least two alternatives. -/
def PAtom.Ok : PAtom → Prop
  | .simple p args => PredOk uni p ∧ OkTerms args
  | .disj ds => 2 ≤ ds.length ∧ OkDisj ds
/-- All atoms can be written. -/
def OkAtoms : List PAtom → Prop
  | [] => True
  | a :: as => a.Ok ∧ OkAtoms as
/-- All alternatives can be written, and none is empty. -/
def OkDisj : List (List PAtom) → Prop
  | [] => True
  | as :: ds => as ≠ [] ∧ OkAtoms as ∧ OkDisj ds
end

/-- A rule that can be written: comments do not go on after the end of the line. -/
def PRule.Ok (r : PRule) : Prop := (∀ c ∈ r.comments, '\n' ∉ c) ∧ PredOk uni r.p ∧ OkTerms uni r.args ∧ OkAtoms uni r.body

end

/-! ## The tokens of written rules -/

mutual
/-- The tokens of a term. -/
def PTerm.toks : PTerm → List Str
  | .str q s => [q :: (escape q s ++ [q])]
  | .int n => [showNat n]
  | .dec n f => [showNat n ++ '.' :: f]
  | .var x => [x]
  | .atoms as => ['('] :: (toksAtoms as ++ [[')']])
/-- The tokens of arguments. -/
def toksTerms : List PTerm → List Str
  | [] => []
  | [t] => t.toks
  | t :: t2 :: ts => t.toks ++ [','] :: toksTerms (t2 :: ts)
/-- The tokens of an atom. -/
def PAtom.toks : PAtom → List Str
  | .simple p args => p :: ['('] :: (toksTerms args ++ [[')']])
  | .disj ds => ['('] :: (toksDisj ds ++ [[')']])
/-- The tokens of atoms. -/
def toksAtoms : List PAtom → List Str
  | [] => []
  | [a] => a.toks
  | a :: a2 :: as => a.toks ++ [','] :: toksAtoms (a2 :: as)
/-- The tokens of alternatives. -/
def toksDisj : List (List PAtom) → List Str
  | [] => []
  | [as] => toksAtoms as
  | as :: as2 :: ds => toksAtoms as ++ [';'] :: toksDisj (as2 :: ds)
end

section
variable {uni : Char → Bool}

theorem ruleMatchers_good : ∀ m ∈ ruleMatchers uni, m.Good := by
  intro m hm
  simp only [ruleMatchers, List.mem_cons, List.not_mem_nil, or_false] at hm
  rcases hm with rfl | rfl | rfl | rfl | rfl | rfl | rfl | rfl | rfl | rfl | rfl | rfl | rfl
  · exact mLit_good (by simp)
  · exact mLit_good (by simp)
  · exact mLit_good (by simp)
  · exact mLit_good (by simp)
  · exact mLit_good (by simp)
  · exact mLit_good (by simp)
  · exact mFloat_good
  · exact mInt_good
  · exact mQuoted_good _
  · exact mQuoted_good _
  · exact mVar_good _
  · exact mWord_good _
  · exact mComment_good

/-- The tokens of a text. -/
abbrev rtoks (uni : Char → Bool) (cs : Str) : List Str := findall (ruleMatchers uni) cs

theorem rtoks_dot (rest : Str) : rtoks uni ('.' :: rest) = ['.'] :: rtoks uni rest := findall_token ruleMatchers_good rfl
theorem rtoks_comma (rest : Str) : rtoks uni (',' :: rest) = [','] :: rtoks uni rest := findall_token ruleMatchers_good rfl
theorem rtoks_semi (rest : Str) : rtoks uni (';' :: rest) = [';'] :: rtoks uni rest := findall_token ruleMatchers_good rfl
theorem rtoks_open (rest : Str) : rtoks uni ('(' :: rest) = ['('] :: rtoks uni rest := findall_token ruleMatchers_good rfl
theorem rtoks_close (rest : Str) : rtoks uni (')' :: rest) = [')'] :: rtoks uni rest := findall_token ruleMatchers_good rfl
theorem rtoks_if (rest : Str) : rtoks uni (':' :: '-' :: rest) = [':', '-'] :: rtoks uni rest :=
  findall_token (t := [':', '-']) ruleMatchers_good rfl
theorem rtoks_space (rest : Str) : rtoks uni (' ' :: rest) = rtoks uni rest := findall_skip rfl
theorem rtoks_newline (rest : Str) : rtoks uni ('\n' :: rest) = rtoks uni rest := findall_skip rfl

theorem mLit_other {c d : Char} {ds cs : Str} (h : c ≠ d) : mLit (d :: ds) (c :: cs) = none := by
  have : (d == c) = false := by simpa using fun h' : d = c => h h'.symm
  simp [mLit, List.isPrefixOf, this]

theorem mQuoted_other {c q : Char} {cs : Str} (h : c ≠ q) : mQuoted q (c :: cs) = none := by
  simp [mQuoted, h]

/-- The tokens of a name followed by something else. -/
theorem rtoks_name {s rest : Str} (hs : PredOk uni s) (hr : ∀ c ∈ rest.head?, isWordChar uni c = false) :
    rtoks uni (s ++ rest) = s :: rtoks uni rest := by
  apply findall_token ruleMatchers_good
  obtain ⟨c, s, rfl, hd, hw⟩ := hs
  have hc := hw c (by simp)
  have hn : ∀ d : Char, isWordChar uni d = false → c ≠ d := by
    intro d hd h
    rw [h, hd] at hc
    cases hc
  obtain ⟨h1, h2⟩ := takeWhile_append_stop (p := isWordChar uni) (w := s) (rest := rest) (fun x hx => hw x (List.mem_cons_of_mem _ hx)) hr
  have hi : mInt (c :: (s ++ rest)) = none := by simp [mInt, hd]
  have hf : mFloat (c :: (s ++ rest)) = none := by simp [mFloat, hi]
  show firstMatch (ruleMatchers uni) (c :: (s ++ rest)) = _
  simp only [ruleMatchers, firstMatch, mLit_other (hn '.' rfl), mLit_other (hn ',' rfl), mLit_other (hn ';' rfl), mLit_other (hn ':' rfl),
    mLit_other (hn '(' rfl), mLit_other (hn ')' rfl), mQuoted_other (hn '\'' rfl), mQuoted_other (hn '"' rfl), hi, hf, Option.none_or]
  by_cases hu : c.isUpper = true
  · have : mVar uni (c :: (s ++ rest)) = some (c :: s, rest) := by simp [mVar, hu, h1, h2]
    rw [this]; rfl
  · have hv : mVar uni (c :: (s ++ rest)) = none := by simp [mVar, hu]
    have hm : mWord uni (c :: (s ++ rest)) = some (c :: s, rest) := by simp [mWord, hc, h1, h2]
    rw [hv, hm]; rfl

/-- What follows a term. -/
def TermEnd (rest : Str) : Prop := ∃ c r, rest = c :: r ∧ (c = ',' ∨ c = ')')

theorem isUpper_not_digit {c : Char} (h : c.isUpper = true) : c.isDigit = false := by
  simp only [Char.isUpper, Char.isDigit, decide_eq_true_eq, Bool.and_eq_false_iff, decide_eq_false_iff_not] at h ⊢
  right
  intro h2
  have h3 := UInt32.le_trans h.1 h2
  exact absurd h3 (by decide)

theorem rvarOk_pred {s : Str} (h : RVarOk uni s) : PredOk uni s := by
  obtain ⟨c, r, rfl, h1, h2⟩ := h
  refine ⟨c, r, rfl, isUpper_not_digit h1, ?_⟩
  intro x hx
  rcases List.mem_cons.1 hx with rfl | hx
  · simp [isWordChar, Char.isAlphanum, Char.isAlpha, h1]
  · exact h2 x hx

theorem termEnd_word {rest : Str} (h : TermEnd rest) : ∀ c ∈ rest.head?, isWordChar uni c = false := by
  obtain ⟨c, r, rfl, rfl | rfl⟩ := h <;> (intro c hc; simp only [List.head?_cons, Option.mem_some_iff] at hc; subst hc; rfl)

theorem mInt_digits {s rest : Str} (hs : s ≠ []) (hd : ∀ c ∈ s, c.isDigit = true) (hr : ∀ c ∈ rest.head?, c.isDigit = false) :
    mInt (s ++ rest) = some (s, rest) := by
  obtain ⟨h1, h2⟩ := takeWhile_append_stop (p := Char.isDigit) hd hr
  unfold mInt
  rw [h1, h2]
  cases s with
  | nil => exact absurd rfl hs
  | cons => rfl

theorem rtoks_digits {s rest : Str} {t rest2 : Str} (hs : s ≠ []) (hd : ∀ c ∈ s, c.isDigit = true)
    (h : (mFloat (s ++ rest)).or (mInt (s ++ rest)) = some (t, rest2)) : rtoks uni (s ++ rest) = t :: rtoks uni rest2 := by
  apply findall_token ruleMatchers_good
  cases s with
  | nil => exact absurd rfl hs
  | cons c s =>
    have hc := hd c (by simp)
    have hn : ∀ d : Char, d.isDigit = false → c ≠ d := by
      intro d hd h
      rw [h, hd] at hc
      cases hc
    show firstMatch (ruleMatchers uni) (c :: (s ++ rest)) = _
    simp only [ruleMatchers, firstMatch, mLit_other (hn '.' rfl), mLit_other (hn ',' rfl), mLit_other (hn ';' rfl), mLit_other (hn ':' rfl),
      mLit_other (hn '(' rfl), mLit_other (hn ')' rfl), Option.none_or]
    rw [← Option.or_assoc]
    have h : (mFloat (c :: (s ++ rest))).or (mInt (c :: (s ++ rest))) = some (t, rest2) := h
    rw [h]
    rfl

theorem rtoks_int (n : Nat) {rest : Str} (hr : TermEnd rest) : rtoks uni (showNat n ++ rest) = showNat n :: rtoks uni rest := by
  refine rtoks_digits (showNat_ne_nil n) (showNat_isDigit n) ?_
  obtain ⟨c, r, rfl, hc⟩ := hr
  have h : mInt (showNat n ++ c :: r) = some (showNat n, c :: r) := by
    refine mInt_digits (showNat_ne_nil n) (showNat_isDigit n) ?_
    intro x hx
    simp only [List.head?_cons, Option.mem_some_iff] at hx
    subst hx
    rcases hc with rfl | rfl <;> rfl
  have hf : mFloat (showNat n ++ c :: r) = none := by
    unfold mFloat
    rw [h]
    rcases hc with rfl | rfl <;> rfl
  rw [hf, h]
  rfl

theorem rtoks_dec (n : Nat) {f rest : Str} (hf : f ≠ []) (hd : ∀ c ∈ f, c.isDigit = true) (hr : TermEnd rest) :
    rtoks uni (showNat n ++ '.' :: f ++ rest) = (showNat n ++ '.' :: f) :: rtoks uni rest := by
  rw [List.append_assoc]
  refine rtoks_digits (showNat_ne_nil n) (showNat_isDigit n) ?_
  have h : mInt (showNat n ++ '.' :: f ++ rest) = some (showNat n, '.' :: (f ++ rest)) := by
    rw [List.append_assoc]
    refine mInt_digits (showNat_ne_nil n) (showNat_isDigit n) ?_
    intro x hx
    simp only [List.cons_append, List.head?_cons, Option.mem_some_iff] at hx
    subst hx
    rfl
  have h2 : mInt (f ++ rest) = some (f, rest) := by
    refine mInt_digits hf hd ?_
    obtain ⟨c, r, rfl, hc⟩ := hr
    intro x hx
    simp only [List.head?_cons, Option.mem_some_iff] at hx
    subst hx
    rcases hc with rfl | rfl <;> rfl
  have hff : mFloat (showNat n ++ '.' :: f ++ rest) = some (showNat n ++ '.' :: f, rest) := by
    unfold mFloat
    rw [h]
    simp only [h2]
  rw [List.append_assoc] at hff
  rw [hff]
  rfl

theorem rtoks_quoted {q : Char} {s : Str} (hq : q = '\'' ∨ q = '"') (hs : s ≠ []) (hl : s.getLast? ≠ some '\\') (rest : Str) :
    rtoks uni (q :: (escape q s ++ q :: rest)) = (q :: (escape q s ++ [q])) :: rtoks uni rest := by
  apply findall_token (t := q :: (escape q s ++ [q])) ruleMatchers_good
  have hm := quotedRest_escape (q := q) (by rcases hq with rfl | rfl <;> decide) s rest false hl (Or.inl hs)
  have hmq : mQuoted q (q :: (escape q s ++ q :: rest)) = some (q :: (escape q s ++ [q]), rest) := by
    simp only [mQuoted, ↓reduceIte, hm, Option.map_some]
  simp only [ruleMatchers, firstMatch]
  rcases hq with rfl | rfl
  · rw [hmq]
    rfl
  · rw [mQuoted_other (by decide), hmq]
    rfl

mutual
theorem rtoks_term (t : PTerm) (ht : t.Ok uni) (rest : Str) (hr : TermEnd rest) : rtoks uni (t.print ++ rest) = t.toks ++ rtoks uni rest := by
  cases t with
  | str q s =>
    rw [PTerm.Ok] at ht
    rw [PTerm.print, PTerm.toks]
    have := rtoks_quoted (uni := uni) ht.1 ht.2.1 ht.2.2 rest
    simpa using this
  | int n =>
    rw [PTerm.print, PTerm.toks, rtoks_int n hr]; rfl
  | dec n f =>
    rw [PTerm.Ok] at ht
    rw [PTerm.print, PTerm.toks, rtoks_dec n ht.1 ht.2.1 hr]; rfl
  | var x =>
    rw [PTerm.Ok] at ht
    rw [PTerm.print, PTerm.toks, rtoks_name (rvarOk_pred ht) (termEnd_word hr)]; rfl
  | atoms as =>
    rw [PTerm.Ok] at ht
    rw [PTerm.print, PTerm.toks]
    simp only [List.cons_append, List.append_assoc, List.nil_append]
    rw [rtoks_open, rtoks_atoms as ht.2, rtoks_close]
theorem rtoks_terms (ts : List PTerm) (ht : OkTerms uni ts) (rest : Str) (hr : TermEnd rest) :
    rtoks uni (printTerms ts ++ rest) = toksTerms ts ++ rtoks uni rest := by
  match ts, ht with
  | [], _ => rw [printTerms, toksTerms]; rfl
  | [t], ht =>
    rw [OkTerms] at ht
    rw [printTerms, toksTerms, rtoks_term t ht.1 rest hr]
  | t :: t2 :: ts, ht =>
    rw [OkTerms] at ht
    rw [printTerms, toksTerms]
    simp only [List.cons_append, List.append_assoc]
    rw [rtoks_term t ht.1 _ ⟨_, _, rfl, Or.inl rfl⟩, rtoks_comma, rtoks_space, rtoks_terms (t2 :: ts) ht.2 rest hr]
theorem rtoks_atom (a : PAtom) (ha : a.Ok uni) (rest : Str) : rtoks uni (a.print ++ rest) = a.toks ++ rtoks uni rest := by
  cases a with
  | simple p args =>
    rw [PAtom.Ok] at ha
    rw [PAtom.print, PAtom.toks]
    simp only [List.cons_append, List.append_assoc, List.nil_append]
    rw [rtoks_name ha.1 (by simp; rfl), rtoks_open, rtoks_terms args ha.2 _ ⟨_, _, rfl, Or.inr rfl⟩, rtoks_close]
  | disj ds =>
    rw [PAtom.Ok] at ha
    rw [PAtom.print, PAtom.toks]
    simp only [List.cons_append, List.append_assoc, List.nil_append]
    rw [rtoks_open, rtoks_disj ds ha.2, rtoks_close]
theorem rtoks_atoms (as : List PAtom) (ha : OkAtoms uni as) (rest : Str) : rtoks uni (printAtoms as ++ rest) = toksAtoms as ++ rtoks uni rest := by
  match as, ha with
  | [], _ => rw [printAtoms, toksAtoms]; rfl
  | [a], ha =>
    rw [OkAtoms] at ha
    rw [printAtoms, toksAtoms, rtoks_atom a ha.1]
  | a :: a2 :: as, ha =>
    rw [OkAtoms] at ha
    rw [printAtoms, toksAtoms]
    simp only [List.cons_append, List.append_assoc]
    rw [rtoks_atom a ha.1, rtoks_comma, rtoks_space, rtoks_atoms (a2 :: as) ha.2]
theorem rtoks_disj (ds : List (List PAtom)) (hd : OkDisj uni ds) (rest : Str) : rtoks uni (printDisj ds ++ rest) = toksDisj ds ++ rtoks uni rest := by
  match ds, hd with
  | [], _ => rw [printDisj, toksDisj]; rfl
  | [as], hd =>
    rw [OkDisj] at hd
    rw [printDisj, toksDisj, rtoks_atoms as hd.2.1]
  | as :: as2 :: ds, hd =>
    rw [OkDisj] at hd
    rw [printDisj, toksDisj]
    simp only [List.cons_append, List.append_assoc]
    rw [rtoks_atoms as hd.2.1, rtoks_space, rtoks_semi, rtoks_space, rtoks_disj (as2 :: ds) hd.2.2]
end

/-! ## The tokens are parsed -/

theorem nextTok_ne {t : Str} (h : t.head? ≠ some '#') (ts : List Str) : nextTok (t :: ts) = some (t, ts) := by
  cases t with
  | nil => rfl
  | cons c r =>
    have hc : c ≠ '#' := fun h2 => h (by simp [h2])
    rw [nextTok]
    rintro x heq
    cases heq
    exact hc rfl

theorem pred_ne_hash {p : Str} (h : PredOk uni p) : p.head? ≠ some '#' := by
  obtain ⟨c, r, rfl, -, hw⟩ := h
  simp only [List.head?_cons, ne_eq, Option.some.injEq]
  rintro rfl
  exact absurd (hw '#' (by simp)) (by rw [show isWordChar uni '#' = false from rfl]; simp)

theorem pred_ne_open {p : Str} (h : PredOk uni p) : p ≠ ['('] := by
  obtain ⟨c, r, rfl, -, hw⟩ := h
  rintro heq
  cases heq
  exact absurd (hw '(' (by simp)) (by rw [show isWordChar uni '(' = false from rfl]; simp)

theorem pred_ident {p : Str} (h : PredOk uni p) : isRuleIdent uni p = true := by
  obtain ⟨c, r, rfl, -, hw⟩ := h
  simpa [isRuleIdent] using hw

theorem inner_quoted (q : Char) (e : Str) : inner (q :: (e ++ [q])) = e := by
  simp [inner]

/-- What tells that a token is a term. -/
def TokTerm (uni : Char → Bool) (t : Str) (v : Value) : Prop := t.head? ≠ some '#' ∧ tokenTerm uni t = some v

theorem tokTerm_str {q : Char} {s : Str} (hq : q = '\'' ∨ q = '"') (h : s.getLast? ≠ some '\\') :
    TokTerm uni (q :: (escape q s ++ [q])) (.str (String.ofList s)) := by
  rcases hq with rfl | rfl
  · refine ⟨by simp, ?_⟩
    simp [tokenTerm, inner_quoted, unescape_escape (q := '\'') (by decide) s h]
  · refine ⟨by simp, ?_⟩
    simp [tokenTerm, inner_quoted, unescape_escape (q := '"') (by decide) s h]

theorem takeWhile_all {s : Str} (hd : ∀ c ∈ s, c.isDigit = true) : s.takeWhile Char.isDigit = s ∧ s.dropWhile Char.isDigit = [] := by
  have := takeWhile_append_stop (p := Char.isDigit) (w := s) (rest := []) hd (by simp)
  simpa using this

theorem digit_head {s : Str} (hs : s ≠ []) (hd : ∀ c ∈ s, c.isDigit = true) {d : Char} (hdd : d.isDigit = false) (r : Str) :
    (s ++ r).head? ≠ some d := by
  cases s with
  | nil => exact absurd rfl hs
  | cons c s =>
    simp only [List.cons_append, List.head?_cons, ne_eq, Option.some.injEq]
    rintro rfl
    rw [hd c (by simp)] at hdd
    cases hdd

theorem isIntTok_digits {s : Str} (hs : s ≠ []) (hd : ∀ c ∈ s, c.isDigit = true) : isIntTok s = true := by
  simpa [isIntTok, hs] using hd

theorem tokTerm_int (n : Nat) : TokTerm uni (showNat n) (.num (n : Rat)) := by
  have hne := showNat_ne_nil n
  have hd := showNat_isDigit n
  have h1 := digit_head hne hd (d := '#') rfl []
  have h2 := digit_head hne hd (d := '\'') rfl []
  have h3 := digit_head hne hd (d := '"') rfl []
  rw [List.append_nil] at h1 h2 h3
  refine ⟨h1, ?_⟩
  have hf : isFloatTok (showNat n) = false := by
    unfold isFloatTok
    rw [(takeWhile_all hd).2]
  rw [tokenTerm, if_neg h2, if_neg h3, hf, isIntTok_digits hne hd]
  simp [readInt, readNat_showNat]

theorem tokTerm_dec (n : Nat) {f : Str} (hf : f ≠ []) (hfd : ∀ c ∈ f, c.isDigit = true) :
    TokTerm uni (showNat n ++ '.' :: f) (.num ((n : Rat) + (readNat f : Rat) / ((10 ^ f.length : Nat) : Rat))) := by
  have hne := showNat_ne_nil n
  have hd := showNat_isDigit n
  refine ⟨digit_head hne hd rfl _, ?_⟩
  obtain ⟨h1, h2⟩ := takeWhile_append_stop (p := Char.isDigit) (w := showNat n) (rest := '.' :: f) hd (by simp)
  have hff : isFloatTok (showNat n ++ '.' :: f) = true := by
    unfold isFloatTok
    rw [h1, h2]
    simp only [isIntTok_digits hne hd, isIntTok_digits hf hfd, Bool.and_self]
  rw [tokenTerm, if_neg (digit_head hne hd rfl _), if_neg (digit_head hne hd rfl _), hff]
  simp only [↓reduceIte, readFloat, h1, h2, List.tail_cons, readNat_showNat]

theorem tokTerm_var {x : Str} (h : RVarOk uni x) : TokTerm uni x (.var (String.ofList x)) := by
  refine ⟨pred_ne_hash (rvarOk_pred h), ?_⟩
  obtain ⟨c, r, rfl, hu, hw⟩ := h
  have hd := isUpper_not_digit hu
  have hn : ∀ d : Char, d.isUpper = false → c ≠ d := by
    intro d hd h
    rw [h, hd] at hu
    cases hu
  have h1 : (c :: r).head? ≠ some '\'' := by simpa using hn '\'' rfl
  have h2 : (c :: r).head? ≠ some '"' := by simpa using hn '"' rfl
  have h3 : isFloatTok (c :: r) = false := by
    unfold isFloatTok
    rw [List.dropWhile_cons_of_neg (by simp [hd])]
    split
    · rename_i h; cases h; exact absurd rfl (hn '.' rfl)
    · rfl
  have h4 : isIntTok (c :: r) = false := by simp [isIntTok, hd]
  have h5 : isRuleVar uni (c :: r) = true := by simpa [isRuleVar, hu] using hw
  rw [tokenTerm, if_neg h1, if_neg h2, h3, h4, h5]
  rfl

theorem dec_ne_zero {n r d : Nat} (hd : d ≠ 0) (h : n ≠ 0 ∨ r ≠ 0) : (n : Rat) + (r : Rat) / (d : Rat) ≠ 0 := by
  intro h0
  have hd' : (d : Rat) ≠ 0 := by exact_mod_cast hd
  have h1 : ((n : Rat) + (r : Rat) / (d : Rat)) * (d : Rat) = 0 := by rw [h0]; exact Rat.zero_mul _
  rw [Rat.add_mul, Rat.div_mul_cancel hd'] at h1
  have h2 : n * d + r = 0 := by exact_mod_cast h1
  rcases h with h | h
  · have : n * d ≠ 0 := Nat.mul_ne_zero h hd
    omega
  · omega

theorem val_not_falsy {t : PTerm} (ht : t.Ok uni) : falsy t.val = false := by
  cases t with
  | str q s =>
    rw [PTerm.Ok] at ht
    have h : String.ofList s ≠ "" := by
      intro h
      have := congrArg String.toList h
      simp only [String.toList_ofList, String.toList_empty] at this
      exact ht.2.1 this
    simp [PTerm.val, falsy, h]
  | int n =>
    rw [PTerm.Ok] at ht
    have : (n : Rat) ≠ 0 := by exact_mod_cast ht
    simp [PTerm.val, falsy, this]
  | dec n f =>
    rw [PTerm.Ok] at ht
    have := dec_ne_zero (d := 10 ^ f.length) (Nat.pos_iff_ne_zero.1 (Nat.pow_pos (by decide))) ht.2.2
    simp only [PTerm.val, falsy, decide_eq_false_iff_not]
    exact this
  | var x => rfl
  | atoms as =>
    rw [PTerm.Ok] at ht
    cases as with
    | nil => exact absurd rfl ht.1
    | cons a as => rw [PTerm.val, valAtoms]; rfl

/-- What follows a list of atoms. -/
def AtomsEnd (ts : List Str) : Prop := ∃ c r, ts = c :: r ∧ (c = [')'] ∨ c = [';'] ∨ c = ['.'])

theorem atomsEnd_next {ts : List Str} (h : AtomsEnd ts) : ∃ c r, nextTok ts = some (c, r) ∧ c ≠ [','] := by
  obtain ⟨c, r, rfl, rfl | rfl | rfl⟩ := h
  all_goals exact ⟨_, _, rfl, by decide⟩

theorem parseSimpleAtom_open (n : Nat) (ts : List Str) : parseSimpleAtom uni (n + 1) (['('] :: ts) = .ok none := rfl

theorem parseTerm_close (n : Nat) (ts : List Str) (h : 5 ≤ n) : parseTerm uni n ([')'] :: ts) = .ok none := by
  obtain ⟨m, rfl⟩ : ∃ m, n = m + 5 := ⟨n - 5, by omega⟩
  rfl

theorem parseTerm_tok {t : Str} {v : Value} (h : TokTerm uni t v) (n : Nat) (ts : List Str) :
    parseTerm uni (n + 1) (t :: ts) = .ok (some (v, ts)) := by
  rw [parseTerm, nextTok_ne h.1]
  simp only [h.2]

theorem toksAtoms_cons (a : PAtom) (as : List PAtom) : toksAtoms (a :: as) = a.toks ++ (match as with
    | [] => []
    | a2 :: as => [','] :: toksAtoms (a2 :: as)) := by
  cases as with
  | nil => rw [toksAtoms, List.append_nil]
  | cons a2 as => rw [toksAtoms]

mutual
theorem parse_term (t : PTerm) (ht : t.Ok uni) :
    ∃ N, ∀ n, N ≤ n → ∀ ts, parseTerm uni n (t.toks ++ ts) = .ok (some (t.val, ts)) := by
  cases t with
  | str q s =>
    rw [PTerm.Ok] at ht
    refine ⟨1, fun n hn ts => ?_⟩
    obtain ⟨m, rfl⟩ : ∃ m, n = m + 1 := ⟨n - 1, by omega⟩
    rw [PTerm.toks, PTerm.val]
    exact parseTerm_tok (tokTerm_str ht.1 ht.2.2) m ts
  | int k =>
    refine ⟨1, fun n hn ts => ?_⟩
    obtain ⟨m, rfl⟩ : ∃ m, n = m + 1 := ⟨n - 1, by omega⟩
    rw [PTerm.toks, PTerm.val]
    exact parseTerm_tok (tokTerm_int k) m ts
  | dec k f =>
    rw [PTerm.Ok] at ht
    refine ⟨1, fun n hn ts => ?_⟩
    obtain ⟨m, rfl⟩ : ∃ m, n = m + 1 := ⟨n - 1, by omega⟩
    rw [PTerm.toks, PTerm.val]
    exact parseTerm_tok (tokTerm_dec k ht.1 ht.2.1) m ts
  | var x =>
    rw [PTerm.Ok] at ht
    refine ⟨1, fun n hn ts => ?_⟩
    obtain ⟨m, rfl⟩ : ∃ m, n = m + 1 := ⟨n - 1, by omega⟩
    rw [PTerm.toks, PTerm.val]
    exact parseTerm_tok (tokTerm_var ht) m ts
  | atoms as =>
    rw [PTerm.Ok] at ht
    obtain ⟨N, hN⟩ := (parse_atoms as ht.1 ht.2).2
    refine ⟨N + 3, fun n hn ts => ?_⟩
    obtain ⟨m, rfl⟩ : ∃ m, n = m + 3 := ⟨n - 3, by omega⟩
    rw [PTerm.toks, PTerm.val]
    simp only [List.cons_append, List.append_assoc, List.nil_append]
    have h1 : parseGrouped uni (m + 1) (['('] :: (toksAtoms as ++ [')'] :: ts)) = .ok (some (valAtoms as, ts)) := by
      rw [parseGrouped, nextTok_ne (by decide)]
      simp only [↓reduceIte]
      rw [hN m (by omega) _ ⟨_, _, rfl, Or.inl rfl⟩]
      simp only [Out.bind, nextTok_ne (t := [')']) (by decide), ↓reduceIte]
    rw [parseTerm, nextTok_ne (by decide)]
    have h2 : tokenTerm uni ['('] = none := rfl
    simp only [h2]
    rw [parseAtoms, h1]
    rfl
theorem parse_terms (l : List PTerm) (hl : OkTerms uni l) :
    ∃ N, ∀ n, N ≤ n → ∀ ts, parseTerms uni n (toksTerms l ++ [')'] :: ts) = .ok (valTerms l, [')'] :: ts) := by
  match l, hl with
  | [], _ =>
    refine ⟨6, fun n hn ts => ?_⟩
    obtain ⟨m, rfl⟩ : ∃ m, n = m + 1 := ⟨n - 1, by omega⟩
    rw [toksTerms, List.nil_append, parseTerms, parseTerm_close m ts (by omega)]
    rfl
  | [t], hl =>
    rw [OkTerms] at hl
    obtain ⟨N, hN⟩ := parse_term t hl.1
    refine ⟨N + 1, fun n hn ts => ?_⟩
    obtain ⟨m, rfl⟩ : ∃ m, n = m + 1 := ⟨n - 1, by omega⟩
    rw [toksTerms, parseTerms, hN m (by omega)]
    simp only [Out.bind, val_not_falsy hl.1, nextTok_ne (t := [')']) (by decide), Bool.false_eq_true, ↓reduceIte]
    rw [if_neg (by decide)]
    rfl
  | t :: t2 :: l, hl =>
    rw [OkTerms] at hl
    obtain ⟨N, hN⟩ := parse_term t hl.1
    obtain ⟨N2, hN2⟩ := parse_terms (t2 :: l) hl.2
    refine ⟨N + N2 + 1, fun n hn ts => ?_⟩
    obtain ⟨m, rfl⟩ : ∃ m, n = m + 1 := ⟨n - 1, by omega⟩
    rw [toksTerms, List.append_assoc, parseTerms, hN m (by omega)]
    simp only [Out.bind, val_not_falsy hl.1, List.cons_append, nextTok_ne (t := [',']) (by decide), Bool.false_eq_true, ↓reduceIte]
    rw [hN2 m (by omega)]
    rfl
theorem parse_atom (a : PAtom) (ha : a.Ok uni) :
    (∃ N, ∀ n, N ≤ n → ∀ ts, parseRuleAtom uni n (a.toks ++ ts) = .ok (some (a.val, ts))) ∧
      ∃ N, ∀ n, N ≤ n → ∀ ts, parseGrouped uni n (a.toks ++ ts) = .ok none := by
  match a, ha with
  | .simple p args, ha =>
    rw [PAtom.Ok] at ha
    constructor
    · obtain ⟨N, hN⟩ := parse_terms args ha.2
      refine ⟨N + 2, fun n hn ts => ?_⟩
      obtain ⟨m, rfl⟩ : ∃ m, n = m + 2 := ⟨n - 2, by omega⟩
      rw [PAtom.toks, PAtom.val]
      simp only [List.cons_append, List.append_assoc, List.nil_append]
      rw [parseRuleAtom, parseSimpleAtom, nextTok_ne (pred_ne_hash ha.1)]
      simp only [pred_ident ha.1, ↓reduceIte, nextTok_ne (t := ['(']) (by decide)]
      rw [hN m (by omega)]
      simp only [Out.bind, nextTok_ne (t := [')']) (by decide), ↓reduceIte]
    · refine ⟨1, fun n hn ts => ?_⟩
      obtain ⟨m, rfl⟩ : ∃ m, n = m + 1 := ⟨n - 1, by omega⟩
      rw [PAtom.toks, List.cons_append, parseGrouped, nextTok_ne (pred_ne_hash ha.1)]
      simp only [pred_ne_open ha.1, ↓reduceIte]
  | .disj [], ha => rw [PAtom.Ok] at ha; exact absurd ha.1 (by decide)
  | .disj [_], ha => rw [PAtom.Ok] at ha; exact absurd ha.1 (by simp)
  | .disj (d1 :: d2 :: ds), ha =>
    rw [PAtom.Ok] at ha
    constructor
    · obtain ⟨N, hN⟩ := parse_disj (d1 :: d2 :: ds) (by simp) ha.2
      refine ⟨N + 2, fun n hn ts => ?_⟩
      obtain ⟨m, rfl⟩ : ∃ m, n = m + 2 := ⟨n - 2, by omega⟩
      rw [PAtom.toks, PAtom.val]
      simp only [List.cons_append, List.append_assoc, List.nil_append]
      rw [parseRuleAtom, parseSimpleAtom_open]
      simp only [Out.bind]
      rw [parseDisjuncted, nextTok_ne (by decide)]
      simp only [↓reduceIte]
      rw [hN m (by omega)]
      simp only [Out.bind, nextTok_ne (t := [')']) (by decide), ↓reduceIte]
    · have h2 := ha.2
      rw [OkDisj] at h2
      obtain ⟨N, hN⟩ := (parse_atoms d1 h2.1 h2.2.1).2
      refine ⟨N + 1, fun n hn ts => ?_⟩
      obtain ⟨m, rfl⟩ : ∃ m, n = m + 1 := ⟨n - 1, by omega⟩
      rw [PAtom.toks, toksDisj]
      simp only [List.cons_append, List.append_assoc, List.nil_append]
      rw [parseGrouped, nextTok_ne (by decide)]
      simp only [↓reduceIte]
      rw [hN m (by omega) _ ⟨_, _, rfl, Or.inr (Or.inl rfl)⟩]
      simp only [Out.bind, nextTok_ne (t := [';']) (by decide)]
      rw [if_neg (by decide)]
theorem parse_atoms (as : List PAtom) (hne : as ≠ []) (ha : OkAtoms uni as) :
    (∃ N, ∀ n, N ≤ n → ∀ ts, AtomsEnd ts → parseUngrouped uni n (toksAtoms as ++ ts) = .ok (some (valAtoms as, ts))) ∧
      ∃ N, ∀ n, N ≤ n → ∀ ts, AtomsEnd ts → parseAtoms uni n (toksAtoms as ++ ts) = .ok (some (valAtoms as, ts)) := by
  have key : ∃ N, ∀ n, N ≤ n → ∀ ts, AtomsEnd ts → parseUngrouped uni n (toksAtoms as ++ ts) = .ok (some (valAtoms as, ts)) := by
    match as, hne, ha with
    | [a], _, ha =>
      rw [OkAtoms] at ha
      obtain ⟨N, hN⟩ := (parse_atom a ha.1).1
      refine ⟨N + 1, fun n hn ts hts => ?_⟩
      obtain ⟨m, rfl⟩ : ∃ m, n = m + 1 := ⟨n - 1, by omega⟩
      obtain ⟨c, r, hc, hcc⟩ := atomsEnd_next hts
      rw [toksAtoms, parseUngrouped, hN m (by omega)]
      simp only [Out.bind, hc, hcc, ↓reduceIte, valAtoms]
    | a :: a2 :: as, _, ha =>
      rw [OkAtoms] at ha
      obtain ⟨N, hN⟩ := (parse_atom a ha.1).1
      obtain ⟨N2, hN2⟩ := (parse_atoms (a2 :: as) (by simp) ha.2).1
      refine ⟨N + N2 + 1, fun n hn ts hts => ?_⟩
      obtain ⟨m, rfl⟩ : ∃ m, n = m + 1 := ⟨n - 1, by omega⟩
      rw [toksAtoms, List.append_assoc, parseUngrouped, hN m (by omega)]
      simp only [Out.bind, List.cons_append, nextTok_ne (t := [',']) (by decide), ↓reduceIte]
      rw [hN2 m (by omega) ts hts]
      rfl
  refine ⟨key, ?_⟩
  obtain ⟨N, hN⟩ := key
  have hg : ∃ N, ∀ n, N ≤ n → ∀ ts, parseGrouped uni n (toksAtoms as ++ ts) = .ok none := by
    match as, hne, ha with
    | a :: as, _, ha =>
      rw [OkAtoms] at ha
      obtain ⟨N, hN⟩ := (parse_atom a ha.1).2
      refine ⟨N, fun n hn ts => ?_⟩
      rw [toksAtoms_cons, List.append_assoc, hN n hn]
  obtain ⟨N2, hN2⟩ := hg
  refine ⟨N + N2 + 1, fun n hn ts hts => ?_⟩
  obtain ⟨m, rfl⟩ : ∃ m, n = m + 1 := ⟨n - 1, by omega⟩
  rw [parseAtoms, hN2 m (by omega)]
  exact hN m (by omega) ts hts
theorem parse_disj (ds : List (List PAtom)) (hne : ds ≠ []) (hd : OkDisj uni ds) :
    ∃ N, ∀ n, N ≤ n → ∀ ts, parseDisjuncts uni n (toksDisj ds ++ [')'] :: ts) = .ok (some (valDisj ds, [')'] :: ts)) := by
  match ds, hne, hd with
  | [as], _, hd =>
    rw [OkDisj] at hd
    obtain ⟨N, hN⟩ := (parse_atoms as hd.1 hd.2.1).2
    refine ⟨N + 1, fun n hn ts => ?_⟩
    obtain ⟨m, rfl⟩ : ∃ m, n = m + 1 := ⟨n - 1, by omega⟩
    rw [toksDisj, parseDisjuncts, hN m (by omega) _ ⟨_, _, rfl, Or.inl rfl⟩]
    simp only [Out.bind, nextTok_ne (t := [')']) (by decide)]
    rw [if_neg (by decide)]
    rfl
  | as :: as2 :: ds, _, hd =>
    rw [OkDisj] at hd
    obtain ⟨N, hN⟩ := (parse_atoms as hd.1 hd.2.1).2
    obtain ⟨N2, hN2⟩ := parse_disj (as2 :: ds) (by simp) hd.2.2
    refine ⟨N + N2 + 1, fun n hn ts => ?_⟩
    obtain ⟨m, rfl⟩ : ∃ m, n = m + 1 := ⟨n - 1, by omega⟩
    rw [toksDisj, List.append_assoc, List.cons_append, parseDisjuncts, hN m (by omega) _ ⟨_, _, rfl, Or.inr (Or.inl rfl)⟩]
    simp only [Out.bind, nextTok_ne (t := [';']) (by decide), ↓reduceIte]
    rw [hN2 m (by omega)]
    rfl
end

/-- The tokens of a rule. -/
def PRule.toks (r : PRule) : List Str :=
  r.comments.map (fun c => '#' :: (c ++ ['\n'])) ++ r.p :: ['('] :: (toksTerms r.args ++ [')'] :: (match r.body with
    | [] => [['.']]
    | a :: as => [':', '-'] :: (toksAtoms (a :: as) ++ [['.']])))

theorem rtoks_comment {c : Str} (hc : '\n' ∉ c) (rest : Str) :
    rtoks uni ('#' :: (c ++ '\n' :: rest)) = ('#' :: (c ++ ['\n'])) :: rtoks uni rest := by
  apply findall_token (t := '#' :: (c ++ ['\n'])) ruleMatchers_good
  obtain ⟨h1, h2⟩ := takeWhile_append_stop (p := (· ≠ '\n')) (w := c) (rest := '\n' :: rest)
    (fun x hx => by simpa using fun h : x = '\n' => hc (h ▸ hx)) (by simp)
  have hm : mComment ('#' :: (c ++ '\n' :: rest)) = some ('#' :: (c ++ ['\n']), rest) := by
    simp only [mComment, h1, h2]
  have hi : mInt ('#' :: (c ++ '\n' :: rest)) = none := rfl
  simp only [ruleMatchers, firstMatch, mLit_other (c := '#') (d := '.') (by decide), mLit_other (c := '#') (d := ',') (by decide),
    mLit_other (c := '#') (d := ';') (by decide), mLit_other (c := '#') (d := ':') (by decide), mLit_other (c := '#') (d := '(') (by decide),
    mLit_other (c := '#') (d := ')') (by decide), mQuoted_other (c := '#') (q := '\'') (by decide),
    mQuoted_other (c := '#') (q := '"') (by decide), hi, hm, Option.none_or]
  rfl

theorem rtoks_comments (cs : List Str) (hc : ∀ c ∈ cs, '\n' ∉ c) (rest : Str) :
    rtoks uni (printComments cs ++ rest) = cs.map (fun c => '#' :: (c ++ ['\n'])) ++ rtoks uni rest := by
  induction cs with
  | nil => rfl
  | cons c cs ih =>
    rw [printComments]
    simp only [List.cons_append, List.append_assoc]
    rw [rtoks_comment (hc c (by simp)), ih fun c h => hc c (List.mem_cons_of_mem _ h)]
    rfl

theorem nextTok_comments (cs : List Str) (ts : List Str) : nextTok (cs.map (fun c => '#' :: (c ++ ['\n'])) ++ ts) = nextTok ts := by
  induction cs with
  | nil => rfl
  | cons c cs ih =>
    rw [List.map_cons, List.cons_append, nextTok, ih]

theorem rtoks_rule (r : PRule) (hr : r.Ok uni) (rest : Str) : rtoks uni (r.print ++ rest) = r.toks ++ rtoks uni rest := by
  obtain ⟨h0, h1, h2, h3⟩ := hr
  rw [PRule.print, PRule.toks]
  simp only [List.append_assoc]
  rw [rtoks_comments _ h0]
  refine congrArg _ ?_
  cases hb : r.body with
  | nil =>
    simp only [List.cons_append, List.append_assoc, List.nil_append]
    rw [rtoks_name h1 (by simp; rfl), rtoks_open, rtoks_terms _ h2 _ ⟨_, _, rfl, Or.inr rfl⟩, rtoks_close, rtoks_dot, rtoks_newline]
  | cons a as =>
    rw [hb] at h3
    simp only [List.cons_append, List.append_assoc, List.nil_append]
    rw [rtoks_name h1 (by simp; rfl), rtoks_open, rtoks_terms _ h2 _ ⟨_, _, rfl, Or.inr rfl⟩, rtoks_close, rtoks_space, rtoks_if, rtoks_space,
      rtoks_atoms _ h3, rtoks_dot, rtoks_newline]

theorem parse_rule (r : PRule) (hr : r.Ok uni) :
    ∃ N, ∀ n, N ≤ n → ∀ ts, parseRule uni n (r.toks ++ ts) = .ok (some (r.val, ts)) := by
  obtain ⟨-, h1, h2, h3⟩ := hr
  obtain ⟨N, hN⟩ := parse_terms r.args h2
  have hhead : ∀ n, N + 1 ≤ n → ∀ ts, parseSimpleAtom uni n (r.comments.map (fun c => '#' :: (c ++ ['\n'])) ++
      r.p :: ['('] :: (toksTerms r.args ++ [')'] :: ts)) =
      .ok (some (.str (String.ofList r.p) :: valTerms r.args, ts)) := by
    intro n hn ts
    obtain ⟨m, rfl⟩ : ∃ m, n = m + 1 := ⟨n - 1, by omega⟩
    rw [parseSimpleAtom, nextTok_comments, nextTok_ne (pred_ne_hash h1)]
    simp only [pred_ident h1, ↓reduceIte, nextTok_ne (t := ['(']) (by decide)]
    rw [hN m (by omega)]
    simp only [Out.bind, nextTok_ne (t := [')']) (by decide), ↓reduceIte]
  rw [PRule.toks, PRule.val]
  cases hb : r.body with
  | nil =>
    refine ⟨N + 1, fun n hn ts => ?_⟩
    simp only [List.cons_append, List.append_assoc, List.nil_append]
    rw [parseRule, hhead n hn]
    rfl
  | cons a as =>
    rw [hb] at h3
    obtain ⟨N2, hN2⟩ := (parse_atoms (a :: as) (by simp) h3).2
    refine ⟨N + N2 + 1, fun n hn ts => ?_⟩
    simp only [List.cons_append, List.append_assoc, List.nil_append]
    rw [parseRule, hhead n (by omega)]
    simp only [Out.bind]
    rw [parseBody, nextTok_ne (by decide)]
    simp only [↓reduceIte]
    rw [hN2 n (by omega) _ ⟨_, _, rfl, Or.inr (Or.inr rfl)⟩]
    simp only [nextTok_ne (t := ['.']) (by decide), ↓reduceIte]

/-- **C41** (part). The text of rules is parsed into these rules: heads, bodies, nested bodies, alternatives, texts with quotes, numbers and
variables, to any depth. Given enough depth the parser returns, and the result does not depend on it. Missing: the number zero, negative
numbers, empty texts and texts that end in a backslash, predicates that start with a digit and disjunctions with a single alternative are
not read back; see the theorems below. -/
theorem C41_round_trip_partial (rs : List PRule) (h : ∀ r ∈ rs, r.Ok uni) :
    ∃ N, ∀ n, N ≤ n → parseRuleText uni n (printRules rs) = .ok (some (rs.map PRule.val)) := by
  have hlex : rtoks uni (printRules rs) = (rs.map PRule.toks).flatten := by
    induction rs with
    | nil => rfl
    | cons r rs ih =>
      rw [printRules, rtoks_rule r (h r (by simp)), ih fun r hr => h r (List.mem_cons_of_mem _ hr)]
      rfl
  have hparse : ∃ N, ∀ n, N ≤ n → parseRules uni n (rs.map PRule.toks).flatten = .ok (rs.map PRule.val, []) := by
    clear hlex
    induction rs with
    | nil =>
      refine ⟨2, fun n hn => ?_⟩
      obtain ⟨m, rfl⟩ : ∃ m, n = m + 2 := ⟨n - 2, by omega⟩
      rfl
    | cons r rs ih =>
      obtain ⟨N, hN⟩ := parse_rule r (h r (by simp))
      obtain ⟨N2, hN2⟩ := ih fun r hr => h r (List.mem_cons_of_mem _ hr)
      refine ⟨N + N2 + 1, fun n hn => ?_⟩
      obtain ⟨m, rfl⟩ : ∃ m, n = m + 1 := ⟨n - 1, by omega⟩
      rw [List.map_cons, List.flatten_cons, parseRules, hN m (by omega)]
      simp only [Out.bind]
      rw [hN2 m (by omega)]
      rfl
  obtain ⟨N, hN⟩ := hparse
  refine ⟨N, fun n hn => ?_⟩
  rw [parseRuleText]
  rw [show findall (ruleMatchers uni) (printRules rs) = _ from hlex, hN n hn]
  rfl

end

/-- Two lines of comment and `grand('it\'s', "\"", 12, 3.05, X) :- p(X, (q(X), r())), (q(X) ; r(), q(X) ; (q(X) ; r())).` -/
def c41Rule : PRule :=
  ⟨[[' ', 'o', 'l', 'd'], []], ['g', 'r', 'a', 'n', 'd'], [.str '\'' ['i', 't', '\'', 's'], .str '"' ['"'], .int 12, .dec 3 ['0', '5'], .var ['X']],
    [.simple ['p'] [.var ['X'], .atoms [.simple ['q'] [.var ['X']], .simple ['r'] []]],
     .disj [[.simple ['q'] [.var ['X']]], [.simple ['r'] [], .simple ['q'] [.var ['X']]],
       [.disj [[.simple ['q'] [.var ['X']]], [.simple ['r'] []]]]]]⟩

theorem c41Rule_ok : ∀ r ∈ [c41Rule, ⟨[], ['p', '_', '1'], [], []⟩], r.Ok (fun _ => false) := by
  have hp : ∀ s ∈ [['g', 'r', 'a', 'n', 'd'], ['p'], ['q'], ['r'], ['p', '_', '1']], PredOk (fun _ => false) s := by
    intro s hs
    simp only [List.mem_cons, List.not_mem_nil, or_false] at hs
    rcases hs with rfl | rfl | rfl | rfl | rfl <;> exact ⟨_, _, rfl, rfl, by decide⟩
  have hx : RVarOk (fun _ => false) ['X'] := ⟨_, _, rfl, rfl, by decide⟩
  intro r hr
  simp only [List.mem_cons, List.not_mem_nil, or_false] at hr
  rcases hr with rfl | rfl
  · simp only [PRule.Ok, c41Rule, OkTerms, OkAtoms, PTerm.Ok, PAtom.Ok, OkDisj]
    simp [hp, hx]
  · exact ⟨by simp, hp _ (by simp), trivial, trivial⟩

example : ∃ N, ∀ n, N ≤ n → parseRuleText (fun _ => false) n (printRules [c41Rule, ⟨[], ['p', '_', '1'], [], []⟩]) =
    .ok (some [c41Rule.val, ⟨[.str "p_1"], .list []⟩]) := C41_round_trip_partial _ c41Rule_ok

/-- `f(0).` is not understood: the number is taken for the absence of a term. -/
theorem C41_zero : parseRuleText (fun _ => false) 20 ['f', '(', '0', ')', '.'] = .ok none := by rfl

/-- `f(-5).` is read as `f(5).`: characters that start no token are skipped. -/
theorem C41_negative : parseRuleText (fun _ => false) 20 ['f', '(', '-', '5', ')', '.'] = .ok (some [⟨[.str "f", .num 5], .list []⟩]) := by rfl

/-- `f(` at the end of the text is a `TypeError`. -/
theorem C41_end : parseRuleText (fun _ => false) 20 ['f', '('] = .err .typeError := by rfl

/-- `a() :- (b()).`: atoms between parentheses are the atoms themselves, so a disjunction with one alternative is not read back. -/
theorem C41_single_alternative : parseRuleText (fun _ => false) 20 (PRule.print ⟨[], ['a'], [], [.disj [[.simple ['b'] []]]]⟩) =
    .ok (some [⟨[.str "a"], .list [.tuple [.str "b"]]⟩]) := by rfl

/-! ## Comments -/

section
variable {uni : Char → Bool}

/-- The tokens that are not comments. -/
def withoutComments (ts : List Str) : List Str := ts.filter fun t => t.head? ≠ some '#'

/-- A result, with the comments left out of the tokens that remain. -/
def leaveComments {α : Type} (o : Out (Option (α × List Str))) : Out (Option (α × List Str)) :=
  o.bind fun r => .ok (r.map fun p => (p.1, withoutComments p.2))

theorem nextTok_withoutComments (ts : List Str) :
    nextTok (withoutComments ts) = (nextTok ts).map fun p => (p.1, withoutComments p.2) := by
  induction ts with
  | nil => rfl
  | cons t ts ih =>
    by_cases h : t.head? = some '#'
    · cases t with
      | nil => cases h
      | cons c r =>
        simp only [List.head?_cons, Option.some.injEq] at h
        subst h
        rw [nextTok, ← ih]
        simp [withoutComments]
    · rw [nextTok_ne h]
      have : withoutComments (t :: ts) = t :: withoutComments ts := by simp [withoutComments, h]
      rw [this, nextTok_ne h]
      rfl

theorem parse_withoutComments (n : Nat) :
    (∀ ts, parseTerm uni n (withoutComments ts) = leaveComments (parseTerm uni n ts)) ∧
    (∀ ts, parseTerms uni n (withoutComments ts) = (parseTerms uni n ts).bind fun r => .ok (r.1, withoutComments r.2)) ∧
    (∀ ts, parseSimpleAtom uni n (withoutComments ts) = leaveComments (parseSimpleAtom uni n ts)) ∧
    (∀ ts, parseAtoms uni n (withoutComments ts) = leaveComments (parseAtoms uni n ts)) ∧
    (∀ ts, parseUngrouped uni n (withoutComments ts) = leaveComments (parseUngrouped uni n ts)) ∧
    (∀ ts, parseGrouped uni n (withoutComments ts) = leaveComments (parseGrouped uni n ts)) ∧
    (∀ ts, parseDisjuncts uni n (withoutComments ts) = leaveComments (parseDisjuncts uni n ts)) ∧
    (∀ ts, parseDisjuncted uni n (withoutComments ts) = leaveComments (parseDisjuncted uni n ts)) ∧
    (∀ ts, parseRuleAtom uni n (withoutComments ts) = leaveComments (parseRuleAtom uni n ts)) := by
  induction n with
  | zero => refine ⟨?_, ?_, ?_, ?_, ?_, ?_, ?_, ?_, ?_⟩ <;> intro ts <;> rfl
  | succ n ih =>
    obtain ⟨i1, i2, i3, i4, i5, i6, i7, i8, i9⟩ := ih
    refine ⟨?_, ?_, ?_, ?_, ?_, ?_, ?_, ?_, ?_⟩ <;> intro ts
    · simp only [parseTerm, nextTok_withoutComments, i4]
      cases nextTok ts with
      | none => rfl
      | some p =>
        simp only [Option.map_some]
        cases tokenTerm uni p.1 with
        | some v => rfl
        | none => rcases parseAtoms uni n ts with ((_ | _) | _ | _) <;> rfl
    · simp only [parseTerms, i1]
      rcases parseTerm uni n ts with ((_ | ⟨v, rest⟩) | _ | _) <;> try rfl
      simp only [leaveComments, Out.bind, Option.map_some, nextTok_withoutComments]
      by_cases hf : falsy v = true
      · simp [hf]
      · simp only [hf]
        cases nextTok rest with
        | none => rfl
        | some p =>
          simp only [Option.map_some]
          by_cases hc : p.1 = [',']
          · simp only [hc, ↓reduceIte, i2]
            rcases parseTerms uni n p.2 with (_ | _ | _) <;> rfl
          · simp [hc]
    · simp only [parseSimpleAtom, nextTok_withoutComments]
      cases nextTok ts with
      | none => rfl
      | some p =>
        simp only [Option.map_some, nextTok_withoutComments]
        by_cases hi : isRuleIdent uni p.1 = true
        · simp only [hi, ↓reduceIte]
          cases nextTok p.2 with
          | none => rfl
          | some q =>
            simp only [Option.map_some, i2]
            by_cases ho : q.1 = ['(']
            · simp only [ho, ↓reduceIte]
              rcases parseTerms uni n q.2 with (r | _ | _) <;> try rfl
              simp only [Out.bind, nextTok_withoutComments]
              cases nextTok r.2 with
              | none => rfl
              | some s =>
                simp only [Option.map_some]
                by_cases hc : s.1 = [')'] <;> simp [hc, leaveComments, Out.bind]
            · simp [ho, leaveComments, Out.bind]
        · simp [hi, leaveComments, Out.bind]
    · simp only [parseAtoms, i6, i5]
      rcases parseGrouped uni n ts with ((_ | _) | _ | _) <;> rfl
    · simp only [parseUngrouped, i9]
      rcases parseRuleAtom uni n ts with ((_ | ⟨a, rest⟩) | _ | _) <;> try rfl
      simp only [leaveComments, Out.bind, Option.map_some, nextTok_withoutComments]
      cases nextTok rest with
      | none => rfl
      | some p =>
        simp only [Option.map_some, i5]
        by_cases hc : p.1 = [',']
        · simp only [hc, ↓reduceIte]
          rcases parseUngrouped uni n p.2 with ((_ | _) | _ | _) <;> rfl
        · simp [hc]
    · simp only [parseGrouped, nextTok_withoutComments]
      cases nextTok ts with
      | none => rfl
      | some p =>
        simp only [Option.map_some, i4]
        by_cases ho : p.1 = ['(']
        · simp only [ho, ↓reduceIte]
          rcases parseAtoms uni n p.2 with ((_ | ⟨a, rest⟩) | _ | _) <;> try rfl
          simp only [leaveComments, Out.bind, Option.map_some, nextTok_withoutComments]
          cases nextTok rest with
          | none => rfl
          | some s =>
            simp only [Option.map_some]
            by_cases hc : s.1 = [')'] <;> simp [hc]
        · simp [ho, leaveComments, Out.bind]
    · simp only [parseDisjuncts, i4]
      rcases parseAtoms uni n ts with ((_ | ⟨a, rest⟩) | _ | _) <;> try rfl
      simp only [leaveComments, Out.bind, Option.map_some, nextTok_withoutComments]
      cases nextTok rest with
      | none => rfl
      | some p =>
        simp only [Option.map_some, i7]
        by_cases hc : p.1 = [';']
        · simp only [hc, ↓reduceIte]
          rcases parseDisjuncts uni n p.2 with ((_ | _) | _ | _) <;> rfl
        · simp [hc]
    · simp only [parseDisjuncted, nextTok_withoutComments]
      cases nextTok ts with
      | none => rfl
      | some p =>
        simp only [Option.map_some, i7]
        by_cases ho : p.1 = ['(']
        · simp only [ho, ↓reduceIte]
          rcases parseDisjuncts uni n p.2 with ((_ | ⟨a, rest⟩) | _ | _) <;> try rfl
          simp only [leaveComments, Out.bind, Option.map_some, nextTok_withoutComments]
          cases nextTok rest with
          | none => rfl
          | some s =>
            simp only [Option.map_some]
            by_cases hc : s.1 = [')'] <;> simp [hc]
        · simp [ho, leaveComments, Out.bind]
    · simp only [parseRuleAtom, i3, i8]
      rcases parseSimpleAtom uni n ts with ((_ | _) | _ | _) <;> rfl

theorem parseRule_withoutComments (n : Nat) (ts : List Str) : parseRule uni n (withoutComments ts) = leaveComments (parseRule uni n ts) := by
  obtain ⟨-, -, i3, i4, -⟩ := parse_withoutComments (uni := uni) n
  have hb : ∀ ts, parseBody uni n (withoutComments ts) = leaveComments (parseBody uni n ts) := by
    intro ts
    simp only [parseBody, nextTok_withoutComments]
    cases nextTok ts with
    | none => rfl
    | some p =>
      simp only [Option.map_some, i4]
      by_cases h : p.1 = [':', '-'] <;> simp [h, leaveComments, Out.bind]
  simp only [parseRule, i3]
  rcases parseSimpleAtom uni n ts with ((_ | ⟨a, rest⟩) | _ | _) <;> try rfl
  simp only [leaveComments, Out.bind, Option.map_some, hb]
  rcases parseBody uni n rest with ((_ | ⟨b, rest⟩) | _ | _) <;> try rfl
  simp only [Option.map_some, nextTok_withoutComments]
  cases nextTok rest with
  | none => rfl
  | some s =>
    simp only [Option.map_some]
    by_cases hc : s.1 = ['.'] <;> simp [hc]

theorem parseRules_withoutComments (n : Nat) (ts : List Str) :
    parseRules uni n (withoutComments ts) = (parseRules uni n ts).bind fun r => .ok (r.1, withoutComments r.2) := by
  induction n generalizing ts with
  | zero => rfl
  | succ n ih =>
    simp only [parseRules, parseRule_withoutComments]
    rcases parseRule uni n ts with ((_ | ⟨a, rest⟩) | _ | _) <;> try rfl
    simp only [leaveComments, Out.bind, Option.map_some, ih]
    rcases parseRules uni n rest with (_ | _ | _) <;> rfl

/-- **C41** (part). Comments and layout mean nothing: two texts with the same tokens, apart from comments, give the same result, whether
that is a list of rules, nothing, or an error. -/
theorem C41_comments (n : Nat) (text text2 : Str)
    (h : (findall (ruleMatchers uni) text).filter (fun t => t.head? ≠ some '#') =
      (findall (ruleMatchers uni) text2).filter (fun t => t.head? ≠ some '#')) :
    parseRuleText uni n text = parseRuleText uni n text2 := by
  have hs : ∀ text, parseRuleText uni n text = (parseRules uni n (withoutComments (findall (ruleMatchers uni) text))).bind fun r =>
      match nextTok r.2 with
      | none => .ok (some r.1)
      | some _ => .ok none := by
    intro text
    rw [parseRuleText, parseRules_withoutComments]
    rcases parseRules uni n (findall (ruleMatchers uni) text) with (r | _ | _) <;> try rfl
    simp only [Out.bind, nextTok_withoutComments]
    cases nextTok r.2 <;> rfl
  rw [hs, hs, withoutComments, withoutComments, h]

end

/-- `f( # c ⏎ X) .` and `f(X).` -/
example : parseRuleText (fun _ => false) 20 ['f', '(', ' ', '#', ' ', 'c', '\n', 'X', ')', ' ', '.'] =
    parseRuleText (fun _ => false) 20 ['f', '(', 'X', ')', '.'] := C41_comments 20 _ _ (by rfl)

/-- `f(X). # c` without a line end: the comment is not seen as one, and the text is not understood. -/
theorem C41_comment_at_end : parseRuleText (fun _ => false) 20 ['f', '(', 'X', ')', '.', ' ', '#', ' ', 'c'] = .ok none := by rfl

end Verif
