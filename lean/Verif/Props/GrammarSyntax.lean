import Verif.GrammarSyntax
import Verif.Props.Grammar

/-!
# C40, C59: grammar rules are read back as they were written; learning grammar rules
-/

namespace Verif

/-! ## The written form of a rule -/

/-- A constituent of a written rule: a word stands between single quotes (`word`) or double quotes (`dword`). -/
inductive SynItem where
  | rel (name : Str) (args : List Str) (opt : Bool)
  | word (text : Str) (opt : Bool)
  | dword (text : Str) (opt : Bool)
  | regexp (text : Str)
deriving DecidableEq

/-- What stands between two constituents: a space, `+` (nothing in the sentence) or `~` (an optional space in the sentence). -/
inductive Joint where
  | space
  | plus
  | tilde
deriving DecidableEq

/-- A written rule: the antecedent and the consequents; each consequent but the last is followed by a joint. -/
structure SynRule where
  name : Str
  args : List Str
  items : List (SynItem × Joint)
  last : Option SynItem

/-- The list of variables. -/
def printArgs : List Str → Str
  | [] => []
  | [a] => a
  | a :: as => a ++ [',', ' '] ++ printArgs as

/-- `name(X, Y)`. -/
def printAtom (name : Str) (args : List Str) : Str := name ++ ['('] ++ printArgs args ++ [')']

/-- `?` for optional constituents. -/
def printOpt (opt : Bool) : Str := if opt then ['?'] else []

/-- A constituent. -/
def printItem : SynItem → Str
  | .rel name args opt => printAtom name args ++ printOpt opt
  | .word text opt => ['\''] ++ escape '\'' text ++ ['\''] ++ printOpt opt
  | .dword text opt => ['"'] ++ escape '"' text ++ ['"'] ++ printOpt opt
  | .regexp text => ['/'] ++ escape '/' text ++ ['/']

/-- A joint. -/
def printJoint : Joint → Str
  | .space => [' ']
  | .plus => [' ', '+', ' ']
  | .tilde => ['~']

/-- The consequents. -/
def printItems : List (SynItem × Joint) → Option SynItem → Str
  | [], none => []
  | [], some i => printItem i
  | (i, j) :: is, l => printItem i ++ printJoint j ++ printItems is l

/-- The rule. -/
def printRule (r : SynRule) : Str := printAtom r.name r.args ++ [' ', '-', '>', ' '] ++ printItems r.items r.last

/-- The constituent meant by a written constituent. -/
def itemConstituent : SynItem → Constituent
  | .rel name args opt => ⟨name, args, .relation, opt, false⟩
  | .word text opt => ⟨text, [], .word, opt, false⟩
  | .dword text opt => ⟨text, [], .word, opt, false⟩
  | .regexp text => ⟨text, [], .regexp, false, false⟩

/-- The constituents meant by a joint. -/
def jointConstituents : Joint → List Constituent
  | .space => [⟨[' '], [], .word, false, true⟩]
  | .plus => []
  | .tilde => [⟨[' '], [], .word, true, true⟩]

/-- The consequents meant by a written rule. -/
def itemsConstituents : List (SynItem × Joint) → Option SynItem → List Constituent
  | [], none => []
  | [], some i => [itemConstituent i]
  | (i, j) :: is, l => itemConstituent i :: (jointConstituents j ++ itemsConstituents is l)

section
variable (uni : Char → Bool)

/-- A name consists of letters, digits and underscores. -/
def NameOk (s : Str) : Prop := s ≠ [] ∧ ∀ c ∈ s, isWordChar uni c = true

/-- A variable is a name that starts with a capital. -/
def VarOk (s : Str) : Prop := ∃ c r, s = c :: r ∧ c.isUpper = true ∧ ∀ c ∈ r, isWordChar uni c = true

/-- A text that can be quoted: not empty and not ending in a backslash. -/
def TextOk (s : Str) : Prop := s ≠ [] ∧ s.getLast? ≠ some '\\'

/-- A constituent that can be written; relations can be optional in write grammars only. -/
def ItemOk (write : Bool) : SynItem → Prop
  | .rel name args opt => NameOk uni name ∧ (∀ a ∈ args, VarOk uni a) ∧ (opt = true → write = true)
  | .word text _ => TextOk text
  | .dword text _ => TextOk text
  | .regexp text => TextOk text

/-- A rule that can be written; a joint is followed by a constituent. -/
structure SynOk (write : Bool) (r : SynRule) : Prop where
  name : NameOk uni r.name
  args : ∀ a ∈ r.args, VarOk uni a
  items : ∀ i ∈ r.items, ItemOk uni write i.1
  last : ∀ i ∈ r.last, ItemOk uni write i
  complete : r.items ≠ [] → r.last ≠ none

end

/-! ## The tokens of a written rule -/

section
variable {uni : Char → Bool}

theorem grammarMatchers_good : ∀ m ∈ grammarMatchers uni, m.Good := by
  intro m hm
  simp only [grammarMatchers, List.mem_cons, List.not_mem_nil, or_false] at hm
  rcases hm with rfl | rfl | rfl | rfl | rfl | rfl | rfl | rfl | rfl | rfl | rfl | rfl
  · exact mLit_good (by simp)
  · exact mLit_good (by simp)
  · exact mLit_good (by simp)
  · exact mLit_good (by simp)
  · exact mLit_good (by simp)
  · exact mQuoted_good _
  · exact mQuoted_good _
  · exact mQuoted_good _
  · exact mVar_good _
  · exact mWord_good _
  · exact mLit_good (by simp)
  · exact mLit_good (by simp)

/-- The tokens of a text. -/
abbrev toks (uni : Char → Bool) (cs : Str) : List Str := findall (grammarMatchers uni) cs

theorem toks_lit {t rest : Str} (h : firstMatch (grammarMatchers uni) (t ++ rest) = some (t, rest)) :
    toks uni (t ++ rest) = t :: toks uni rest := findall_token grammarMatchers_good h

theorem toks_question (rest : Str) : toks uni ('?' :: rest) = ['?'] :: toks uni rest := findall_token grammarMatchers_good rfl
theorem toks_comma (rest : Str) : toks uni (',' :: rest) = [','] :: toks uni rest := findall_token grammarMatchers_good rfl
theorem toks_open (rest : Str) : toks uni ('(' :: rest) = ['('] :: toks uni rest := findall_token grammarMatchers_good rfl
theorem toks_close (rest : Str) : toks uni (')' :: rest) = [')'] :: toks uni rest := findall_token grammarMatchers_good rfl
theorem toks_plus (rest : Str) : toks uni ('+' :: rest) = ['+'] :: toks uni rest := findall_token grammarMatchers_good rfl
theorem toks_tilde (rest : Str) : toks uni ('~' :: rest) = ['~'] :: toks uni rest := findall_token grammarMatchers_good rfl
theorem toks_arrow (rest : Str) : toks uni ('-' :: '>' :: rest) = ['-', '>'] :: toks uni rest :=
  findall_token (t := ['-', '>']) grammarMatchers_good rfl
theorem toks_space (rest : Str) : toks uni (' ' :: rest) = toks uni rest := findall_skip rfl

theorem isUpper_word {c : Char} (h : c.isUpper = true) : isWordChar uni c = true := by
  simp [isWordChar, Char.isAlphanum, Char.isAlpha, h]

/-- The tokens of a name followed by something else. -/
theorem toks_name {s rest : Str} (hs : NameOk uni s) (hr : ∀ c ∈ rest.head?, isWordChar uni c = false) :
    toks uni (s ++ rest) = s :: toks uni rest := by
  apply findall_token grammarMatchers_good
  obtain ⟨hne, hw⟩ := hs
  cases s with
  | nil => exact absurd rfl hne
  | cons c s =>
    have hc := hw c (by simp)
    have hn : ∀ d : Char, isWordChar uni d = false → c ≠ d := by
      intro d hd h
      rw [h, hd] at hc
      cases hc
    obtain ⟨h1, h2⟩ := takeWhile_append_stop (p := isWordChar uni) (w := s) (rest := rest) (fun x hx => hw x (List.mem_cons_of_mem _ hx)) hr
    have e1 := hn '?' rfl
    have e2 := hn ',' rfl
    have e3 := hn '-' rfl
    have e4 := hn '(' rfl
    have e5 := hn ')' rfl
    have e6 := hn '/' rfl
    have e7 := hn '\'' rfl
    have e8 := hn '"' rfl
    have lit : ∀ d ds, c ≠ d → mLit (d :: ds) (c :: s ++ rest) = none := by
      intro d ds h
      have : (d == c) = false := by simpa using fun h' : d = c => h h'.symm
      simp [mLit, List.isPrefixOf, this]
    have quo : ∀ d, c ≠ d → mQuoted d (c :: s ++ rest) = none := by
      intro d h
      simp [mQuoted, h]
    simp only [grammarMatchers, firstMatch, lit _ _ e1, lit _ _ e2, lit _ _ e3, lit _ _ e4, lit _ _ e5, quo _ e6, quo _ e7, quo _ e8,
      Option.none_or]
    by_cases hu : c.isUpper = true
    · have : mVar uni (c :: s ++ rest) = some (c :: s, rest) := by simp [mVar, hu, h1, h2]
      rw [this]; rfl
    · have hv : mVar uni (c :: s ++ rest) = none := by simp [mVar, hu]
      have hm : mWord uni (c :: s ++ rest) = some (c :: s, rest) := by simp [mWord, hc, h1, h2]
      rw [hv, hm]; rfl

theorem varOk_name {s : Str} (h : VarOk uni s) : NameOk uni s := by
  obtain ⟨c, r, rfl, h1, h2⟩ := h
  refine ⟨by simp, ?_⟩
  intro x hx
  rcases List.mem_cons.1 hx with rfl | hx
  · exact isUpper_word h1
  · exact h2 x hx

theorem varOk_tok {s : Str} (h : VarOk uni s) : isVarTok uni s = true := by
  obtain ⟨c, r, rfl, h1, h2⟩ := h
  simp only [isVarTok, h1, Bool.true_and, List.all_eq_true]
  exact h2

theorem nameOk_tok {s : Str} (h : NameOk uni s) : isIdentTok uni s = true := by
  simp only [isIdentTok, Bool.and_eq_true, decide_eq_true_eq, List.all_eq_true]
  exact h

/-- The tokens of a quoted text. -/
theorem toks_quoted {q : Char} (hq : q = '\'' ∨ q = '"' ∨ q = '/') {s : Str} (hs : TextOk s) (rest : Str) :
    toks uni (q :: (escape q s ++ q :: rest)) = (q :: (escape q s ++ [q])) :: toks uni rest := by
  apply findall_token (t := q :: (escape q s ++ [q])) grammarMatchers_good
  have hqb : q ≠ '\\' := by rcases hq with rfl | rfl | rfl <;> decide
  have hm := quotedRest_escape hqb s rest false hs.2 (Or.inl hs.1)
  have hmq : mQuoted q (q :: (escape q s ++ q :: rest)) = some (q :: (escape q s ++ [q]), rest) := by
    simp only [mQuoted, ↓reduceIte, hm, Option.map_some]
  rcases hq with rfl | rfl | rfl
  · simp only [grammarMatchers, firstMatch]
    rw [hmq]
    rfl
  · simp only [grammarMatchers, firstMatch]
    rw [hmq]
    rfl
  · simp only [grammarMatchers, firstMatch]
    rw [hmq]
    rfl

/-- The tokens of the variables of an atom. -/
def argToks : List Str → List Str
  | [] => []
  | [a] => [a]
  | a :: as => a :: [','] :: argToks as

theorem toks_args {args : List Str} (ha : ∀ a ∈ args, VarOk uni a) (rest : Str) :
    toks uni (printArgs args ++ ')' :: rest) = argToks args ++ [')'] :: toks uni rest := by
  induction args with
  | nil => exact toks_close rest
  | cons a as ih =>
    cases as with
    | nil =>
      show toks uni (a ++ ')' :: rest) = _
      rw [toks_name (varOk_name (ha a (by simp))) (by simp; rfl), toks_close]
      rfl
    | cons b bs =>
      show toks uni (a ++ [',', ' '] ++ printArgs (b :: bs) ++ ')' :: rest) = _
      rw [List.append_assoc, List.append_assoc, toks_name (varOk_name (ha a (by simp))) (by simp; rfl)]
      show a :: toks uni (',' :: ' ' :: (printArgs (b :: bs) ++ ')' :: rest)) = _
      rw [toks_comma, toks_space, ih fun x hx => ha x (List.mem_cons_of_mem _ hx)]
      rfl

theorem toks_atom {name : Str} {args : List Str} (hn : NameOk uni name) (ha : ∀ a ∈ args, VarOk uni a) (rest : Str) :
    toks uni (printAtom name args ++ rest) = name :: ['('] :: (argToks args ++ [')'] :: toks uni rest) := by
  show toks uni (name ++ ['('] ++ printArgs args ++ [')'] ++ rest) = _
  simp only [List.append_assoc]
  rw [toks_name hn (by simp; rfl)]
  show name :: toks uni ('(' :: (printArgs args ++ ')' :: rest)) = _
  rw [toks_open, toks_args ha]

theorem parseVars_args {args : List Str} (ha : ∀ a ∈ args, VarOk uni a) (ts : List Str) :
    parseVars uni (argToks args ++ [')'] :: ts) = (args, [')'] :: ts) := by
  induction args with
  | nil => cases ts <;> rfl
  | cons a as ih =>
    have h1 := varOk_tok (ha a (by simp))
    cases as with
    | nil => simp [argToks, parseVars, h1]
    | cons b bs =>
      have ih := ih fun x hx => ha x (List.mem_cons_of_mem _ hx)
      show parseVars uni (a :: [','] :: (argToks (b :: bs) ++ [')'] :: ts)) = _
      rw [parseVars, if_pos h1, if_pos rfl, ih]

theorem parseGrammarAtom_atom {name : Str} {args : List Str} (hn : NameOk uni name) (ha : ∀ a ∈ args, VarOk uni a) (ts : List Str) :
    parseGrammarAtom uni (name :: ['('] :: (argToks args ++ [')'] :: ts)) = some (⟨name, args, .relation, false, false⟩, ts) := by
  rw [parseGrammarAtom, if_pos (nameOk_tok hn), if_pos rfl, parseVars_args ha]
  simp

/-- The token of an optional constituent. -/
def optToks (opt : Bool) : List Str := if opt then [['?']] else []

/-- The tokens of a constituent. -/
def itemToks : SynItem → List Str
  | .rel name args opt => name :: ['('] :: (argToks args ++ [')'] :: optToks opt)
  | .word text opt => ('\'' :: (escape '\'' text ++ ['\''])) :: optToks opt
  | .dword text opt => ('"' :: (escape '"' text ++ ['"'])) :: optToks opt
  | .regexp text => [('/' :: (escape '/' text ++ ['/']))]

/-- The tokens of a joint. -/
def jointToks : Joint → List Str
  | .space => []
  | .plus => [['+']]
  | .tilde => [['~']]

/-- The tokens of the consequents. -/
def itemsToks : List (SynItem × Joint) → Option SynItem → List Str
  | [], none => []
  | [], some i => itemToks i
  | (i, j) :: is, l => itemToks i ++ (jointToks j ++ itemsToks is l)

theorem toks_opt (opt : Bool) (rest : Str) : toks uni (printOpt opt ++ rest) = optToks opt ++ toks uni rest := by
  cases opt with
  | true => exact toks_question rest
  | false => rfl

theorem toks_item {write : Bool} {i : SynItem} (hi : ItemOk uni write i) (rest : Str) :
    toks uni (printItem i ++ rest) = itemToks i ++ toks uni rest := by
  cases i with
  | rel name args opt =>
    show toks uni (printAtom name args ++ printOpt opt ++ rest) = _
    rw [List.append_assoc, toks_atom hi.1 hi.2.1, toks_opt]
    simp [itemToks]
  | word text opt =>
    show toks uni (['\''] ++ escape '\'' text ++ ['\''] ++ printOpt opt ++ rest) = _
    simp only [List.append_assoc, List.cons_append, List.nil_append]
    rw [toks_quoted (Or.inl rfl) hi, toks_opt]
    rfl
  | dword text opt =>
    show toks uni (['"'] ++ escape '"' text ++ ['"'] ++ printOpt opt ++ rest) = _
    simp only [List.append_assoc, List.cons_append, List.nil_append]
    rw [toks_quoted (Or.inr (Or.inl rfl)) hi, toks_opt]
    rfl
  | regexp text =>
    show toks uni (['/'] ++ escape '/' text ++ ['/'] ++ rest) = _
    simp only [List.append_assoc, List.cons_append, List.nil_append]
    rw [toks_quoted (Or.inr (Or.inr rfl)) hi]
    rfl

theorem toks_joint (j : Joint) (rest : Str) : toks uni (printJoint j ++ rest) = jointToks j ++ toks uni rest := by
  cases j with
  | space => exact toks_space rest
  | plus =>
    show toks uni (' ' :: '+' :: ' ' :: rest) = _
    rw [toks_space, toks_plus, toks_space]; rfl
  | tilde => exact toks_tilde rest

theorem toks_items {write : Bool} {is : List (SynItem × Joint)} {l : Option SynItem} (hi : ∀ i ∈ is, ItemOk uni write i.1)
    (hl : ∀ i ∈ l, ItemOk uni write i) : toks uni (printItems is l) = itemsToks is l := by
  induction is with
  | nil =>
    cases l with
    | none => rfl
    | some i =>
      have := toks_item (hl i rfl) []
      rw [List.append_nil] at this
      show toks uni (printItem i) = _
      rw [this]
      simp [itemsToks]
  | cons x is ih =>
    obtain ⟨i, j⟩ := x
    show toks uni (printItem i ++ printJoint j ++ printItems is l) = _
    rw [List.append_assoc, toks_item (hi (i, j) (by simp)), toks_joint, ih fun x hx => hi x (List.mem_cons_of_mem _ hx)]
    rfl

/-! ## Parsing the tokens -/

/-- A token that is not taken for a part of the constituent before it. -/
def FreshRule (ts : List Str) : Prop := ∀ t ∈ ts.head?, t ≠ ['?']

theorem parseOptional_opt (opt : Bool) {ts : List Str} (h : FreshRule ts) : parseOptional (optToks opt ++ ts) = (opt, ts) := by
  cases opt with
  | true => rfl
  | false =>
    cases ts with
    | nil => rfl
    | cons t ts =>
      have : t ≠ ['?'] := h t (by simp)
      simp [optToks, parseOptional, this]

theorem parseGrammarAtom_quoted (q : Char) (hq : q = '\'' ∨ q = '"' ∨ q = '/') (t : Str) (ts : List Str) : parseGrammarAtom uni ((q :: t) :: ts) = none := by
  have h : isIdentTok uni (q :: t) = false := by
    rcases hq with rfl | rfl | rfl
    · simp only [isIdentTok, List.all_cons]
      have : isWordChar uni '\'' = false := rfl
      simp [this]
    · simp only [isIdentTok, List.all_cons]
      have : isWordChar uni '"' = false := rfl
      simp [this]
    · simp only [isIdentTok, List.all_cons]
      have : isWordChar uni '/' = false := rfl
      simp [this]
  cases ts with
  | nil => rfl
  | cons o ts => simp [parseGrammarAtom, h]

theorem unescape_inner {q : Char} (hq : q ≠ '\\') {s : Str} (hs : TextOk s) : unescape q (inner (q :: (escape q s ++ [q]))) = s := by
  have : inner (q :: (escape q s ++ [q])) = escape q s := by simp [inner]
  rw [this, unescape_escape hq s hs.2]

theorem parseItem_word {write : Bool} {ts rest : List Str} {s : Str} (h1 : parseGrammarAtom uni ts = none) (h2 : parseRegexp ts = none)
    (h3 : parseString ts = some (s, rest)) :
    parseItem uni write ts = some (⟨s, [], .word, (parseOptional rest).1, false⟩, (parseOptional rest).2) := by
  simp [parseItem, h1, h2, h3]

theorem parseItem_regexp {write : Bool} {ts rest : List Str} {s : Str} (h1 : parseGrammarAtom uni ts = none)
    (h2 : parseRegexp ts = some (s, rest)) : parseItem uni write ts = some (⟨s, [], .regexp, false, false⟩, rest) := by
  simp [parseItem, h1, h2]

theorem parseItem_item {write : Bool} {i : SynItem} (hi : ItemOk uni write i) {ts : List Str} (hts : FreshRule ts) :
    parseItem uni write (itemToks i ++ ts) = some (itemConstituent i, ts) := by
  cases i with
  | rel name args opt =>
    unfold parseItem
    have := parseGrammarAtom_atom hi.1 hi.2.1 (optToks opt ++ ts)
    have he : itemToks (.rel name args opt) ++ ts = name :: ['('] :: (argToks args ++ [')'] :: (optToks opt ++ ts)) := by simp [itemToks]
    rw [he, this]
    cases write with
    | true =>
      simp only [↓reduceIte, parseOptional_opt opt hts]
      rfl
    | false =>
      have : opt = false := by
        cases opt with
        | false => rfl
        | true => exact absurd (hi.2.2 rfl) (by decide)
      subst this
      rfl
  | word text opt =>
    have hr : parseRegexp (('\'' :: (escape '\'' text ++ ['\''])) :: (optToks opt ++ ts)) = none := rfl
    have hp : parseString (('\'' :: (escape '\'' text ++ ['\''])) :: (optToks opt ++ ts)) = some (text, optToks opt ++ ts) := by
      simp only [parseString, true_or, ↓reduceIte, unescape_inner (q := '\'') (by decide) hi]
      cases h : text with
      | nil => exact absurd h hi.1
      | cons => rfl
    have := parseItem_word (write := write) (parseGrammarAtom_quoted (uni := uni) _ (Or.inl rfl) _ _) hr hp
    rw [parseOptional_opt opt hts] at this
    exact this
  | dword text opt =>
    have hr : parseRegexp (('"' :: (escape '"' text ++ ['"'])) :: (optToks opt ++ ts)) = none := rfl
    have hp : parseString (('"' :: (escape '"' text ++ ['"'])) :: (optToks opt ++ ts)) = some (text, optToks opt ++ ts) := by
      simp only [parseString, or_true, ↓reduceIte, unescape_inner (q := '"') (by decide) hi]
      cases h : text with
      | nil => exact absurd h hi.1
      | cons => rfl
    have := parseItem_word (write := write) (parseGrammarAtom_quoted (uni := uni) _ (Or.inr (Or.inl rfl)) _ _) hr hp
    rw [parseOptional_opt opt hts] at this
    exact this
  | regexp text =>
    have hp : parseRegexp (('/' :: (escape '/' text ++ ['/'])) :: ts) = some (text, ts) := by
      simp only [parseRegexp, unescape_inner (q := '/') (by decide) hi]
      cases h : text with
      | nil => exact absurd h hi.1
      | cons => rfl
    exact parseItem_regexp (write := write) (parseGrammarAtom_quoted (uni := uni) _ (Or.inr (Or.inr rfl)) _ _) hp

theorem name_ne {s : Str} (h : NameOk uni s) {c : Char} (hc : isWordChar uni c = false) (cs : Str) : s ≠ c :: cs := by
  intro he
  subst he
  have := h.2 c (by simp)
  rw [hc] at this
  cases this

theorem itemToks_head {write : Bool} {i : SynItem} (hi : ItemOk uni write i) :
    ∃ t ts, itemToks i = t :: ts ∧ t ≠ ['?'] ∧ t ≠ ['+'] ∧ t ≠ ['~'] := by
  cases i with
  | rel name args opt => exact ⟨_, _, rfl, name_ne hi.1 rfl _, name_ne hi.1 rfl _, name_ne hi.1 rfl _⟩
  | word text opt => exact ⟨_, _, rfl, by simp, by simp, by simp⟩
  | dword text opt => exact ⟨_, _, rfl, by simp, by simp, by simp⟩
  | regexp text => exact ⟨_, _, rfl, by simp, by simp, by simp⟩

theorem itemsToks_head {write : Bool} {is : List (SynItem × Joint)} {l : Option SynItem} (hi : ∀ i ∈ is, ItemOk uni write i.1)
    (hl : ∀ i ∈ l, ItemOk uni write i) (hne : l ≠ none) : ∃ t ts, itemsToks is l = t :: ts ∧ t ≠ ['?'] ∧ t ≠ ['+'] ∧ t ≠ ['~'] := by
  cases is with
  | nil =>
    cases l with
    | none => exact absurd rfl hne
    | some i => exact itemToks_head (hl i rfl)
  | cons x is =>
    obtain ⟨t, ts, h1, h2⟩ := itemToks_head (hi x (by simp))
    obtain ⟨i, j⟩ := x
    exact ⟨t, ts ++ (jointToks j ++ itemsToks is l), by simp [itemsToks, h1], h2⟩

theorem parseItems_items {write : Bool} {is : List (SynItem × Joint)} {l : Option SynItem} (hi : ∀ i ∈ is, ItemOk uni write i.1)
    (hl : ∀ i ∈ l, ItemOk uni write i) (hc : is ≠ [] → l ≠ none) {n : Nat} (hn : is.length < n) :
    parseItems uni write n (itemsToks is l) = (itemsConstituents is l, []) := by
  induction is generalizing n with
  | nil =>
    cases n with
    | zero => omega
    | succ n =>
      cases l with
      | none => rfl
      | some i =>
        have := parseItem_item (hl i rfl) (ts := []) (by simp [FreshRule])
        rw [List.append_nil] at this
        rw [parseItems]
        show (match parseItem uni write (itemToks i) with
          | none => _
          | some (c, []) => _
          | some (c, t :: rest) => _) = _
        rw [this]
        rfl
  | cons x is ih =>
    obtain ⟨i, j⟩ := x
    cases n with
    | zero => omega
    | succ n =>
      have hlne := hc (by simp)
      have ih := ih (fun x hx => hi x (List.mem_cons_of_mem _ hx)) (fun _ => hlne) (n := n) (by simpa using hn)
      obtain ⟨t, ts, ht, t1, t2, t3⟩ := itemsToks_head (fun x hx => hi x (List.mem_cons_of_mem _ hx)) hl hlne (is := is)
      have hf : FreshRule (jointToks j ++ itemsToks is l) := by
        cases j with
        | space => intro x hx; rw [ht] at hx; simp only [jointToks, List.nil_append, List.head?_cons, Option.mem_some_iff] at hx; rw [← hx]; exact t1
        | plus => intro x hx; simp only [jointToks, List.cons_append, List.head?_cons, Option.mem_some_iff] at hx; rw [← hx]; simp
        | tilde => intro x hx; simp only [jointToks, List.cons_append, List.head?_cons, Option.mem_some_iff] at hx; rw [← hx]; simp
      have hp := parseItem_item (hi (i, j) (by simp)) hf
      rw [parseItems]
      show (match parseItem uni write (itemToks i ++ (jointToks j ++ itemsToks is l)) with
        | none => _
        | some (c, []) => _
        | some (c, t :: rest) => _) = _
      rw [hp]
      cases j with
      | space =>
        simp only [jointToks, List.nil_append, ht]
        rw [← ht, if_neg t2, if_neg t3, ih]
        rfl
      | plus =>
        simp only [jointToks, List.cons_append, List.nil_append, ↓reduceIte, ih]
        rfl
      | tilde =>
        simp only [jointToks, List.cons_append, List.nil_append, ↓reduceIte, ih]
        rfl

theorem itemsToks_length {write : Bool} {is : List (SynItem × Joint)} {l : Option SynItem} (hi : ∀ i ∈ is, ItemOk uni write i.1) :
    is.length ≤ (itemsToks is l).length := by
  induction is with
  | nil => simp
  | cons x is ih =>
    obtain ⟨i, j⟩ := x
    obtain ⟨t, ts, h1, -⟩ := itemToks_head (hi (i, j) (by simp))
    have := ih fun x hx => hi x (List.mem_cons_of_mem _ hx)
    simp only [itemsToks, List.length_append, h1, List.length_cons]
    omega

/-! ## C40 -/

/-- **C40** (part) A written rule is read back: the category and the variables of its antecedent, and its consequents in order, with their names,
variables, words (between single or double quotes, also with quotes in them), regular expressions, separators and markers for optional constituents.

Full statement: the same for all words and regular expressions. Missing: texts that are empty or end in a backslash (see
`C40_backslash`: they cannot be quoted in this notation). -/
theorem C40_round_trip_partial {write : Bool} {r : SynRule} (h : SynOk uni write r) :
    parseSyntax uni (printRule r) write = .ok (⟨r.name, r.args, .relation, false, false⟩, itemsConstituents r.items r.last) := by
  unfold parseSyntax
  have ht : findall (grammarMatchers uni) (printRule r) =
      r.name :: ['('] :: (argToks r.args ++ [')'] :: ['-', '>'] :: itemsToks r.items r.last) := by
    show toks uni (printAtom r.name r.args ++ [' ', '-', '>', ' '] ++ printItems r.items r.last) = _
    rw [List.append_assoc, toks_atom h.name h.args]
    show _ :: _ :: (_ ++ _ :: toks uni (' ' :: '-' :: '>' :: ' ' :: printItems r.items r.last)) = _
    rw [toks_space, toks_arrow, toks_space, toks_items h.items h.last]
  simp only [ht, parseGrammarAtom_atom h.name h.args]
  rw [if_neg (by simp), parseItems_items h.items h.last h.complete (Nat.lt_succ_of_le (itemsToks_length h.items))]
  simp

/-- Different rules have different written forms. -/
theorem C40_injective {write : Bool} {r s : SynRule} (hr : SynOk uni write r) (hs : SynOk uni write s) (h : printRule r = printRule s) :
    r.name = s.name ∧ r.args = s.args ∧ itemsConstituents r.items r.last = itemsConstituents s.items s.last := by
  have h1 := C40_round_trip_partial hr
  rw [h, C40_round_trip_partial hs] at h1
  simp only [Except.ok.injEq, Prod.mk.injEq, Constituent.mk.injEq, and_true] at h1
  exact ⟨h1.1.1.symm, h1.1.2.symm, h1.2.symm⟩

end

/-- `s(E) -> "what" 'it\'s' np(E, X)?~/\w+/` -/
def c40Rule : SynRule :=
  ⟨['s'], [['E']], [(.dword ['w', 'h', 'a', 't'] false, .space), (.word ['i', 't', '\'', 's'] false, .space), (.rel ['n', 'p'] [['E'], ['X', '1']] true, .tilde)],
   some (.regexp ['\\', 'w', '+'])⟩

theorem c40Rule_ok (uni : Char → Bool) : SynOk uni true c40Rule where
  name := ⟨by simp [c40Rule], by simp [c40Rule]; rfl⟩
  args := by
    intro a ha
    simp only [c40Rule, List.mem_singleton] at ha
    subst ha
    exact ⟨'E', [], rfl, rfl, by simp⟩
  items := by
    intro i hi
    simp only [c40Rule, List.mem_cons, List.not_mem_nil, or_false] at hi
    rcases hi with rfl | rfl | rfl
    · exact ⟨by simp, by decide⟩
    · exact ⟨by simp, by decide⟩
    · refine ⟨⟨by simp, ?_⟩, ?_, fun _ => rfl⟩
      · intro c hc
        simp only [List.mem_cons, List.not_mem_nil, or_false] at hc
        rcases hc with rfl | rfl <;> rfl
      · intro a ha
        simp only [List.mem_cons, List.not_mem_nil, or_false] at ha
        rcases ha with rfl | rfl
        · exact ⟨'E', [], rfl, rfl, by simp⟩
        · refine ⟨'X', ['1'], rfl, rfl, ?_⟩
          intro c hc
          simp only [List.mem_singleton] at hc
          subst hc
          rfl
  last := by
    intro i hi
    simp only [c40Rule, Option.mem_some_iff] at hi
    subst hi
    exact ⟨by simp, by decide⟩
  complete := by simp [c40Rule]

example (uni : Char → Bool) : parseSyntax uni
    ['s', '(', 'E', ')', ' ', '-', '>', ' ', '"', 'w', 'h', 'a', 't', '"', ' ', '\'', 'i', 't', '\\', '\'', 's', '\'', ' ', 'n', 'p', '(', 'E', ',', ' ', 'X', '1', ')', '?', '~',
     '/', '\\', 'w', '+', '/'] true =
    .ok (⟨['s'], [['E']], .relation, false, false⟩,
      [⟨['w', 'h', 'a', 't'], [], .word, false, false⟩, ⟨[' '], [], .word, false, true⟩,
       ⟨['i', 't', '\'', 's'], [], .word, false, false⟩, ⟨[' '], [], .word, false, true⟩,
       ⟨['n', 'p'], [['E'], ['X', '1']], .relation, true, false⟩, ⟨[' '], [], .word, true, true⟩,
       ⟨['\\', 'w', '+'], [], .regexp, false, false⟩]) := C40_round_trip_partial (c40Rule_ok uni)

/-- A word that ends in a backslash is not read back: `s() -> 'a\' 'b'` gives one word and an unfinished one. -/
theorem C40_backslash (uni : Char → Bool) :
    parseSyntax uni (printRule ⟨['s'], [], [(.word ['a', '\\'] false, .space)], some (.word ['b'] false)⟩) false ≠
      .ok (⟨['s'], [], .relation, false, false⟩, itemsConstituents [(.word ['a', '\\'] false, .space)] (some (.word ['b'] false))) := by
  have : parseSyntax uni (printRule ⟨['s'], [], [(.word ['a', '\\'] false, .space)], some (.word ['b'] false)⟩) false =
      .error (.exception "Could not complete parsing the consequents") := rfl
  rw [this]
  simp

/-! ## C59 -/

section
variable {A : Type} {uni : Char → Bool} {H : Constituent → List Constituent → Nat}

/-- The code does not do what C59 claims: `learn_grammar_rule` raises a `TypeError` for every rule, and the grammar stays as it is. -/
theorem C59_never_learns (r : SimpleRule A) (g : Grammar A) : learnGrammarRule uni H r g = .err g .typeError := rfl

/-- **C59** (part) When the missing argument is passed, every rule that can be written is read, and once it is added to the grammar it is found, with
its variants, after the rules that were there.

Full statement: this is what `learn_grammar_rule` does. Missing: it never gets this far, see `C59_never_learns`. -/
theorem C59_add_rule_partial {write : Bool} {s : SynRule} (h : SynOk uni write s) (sem : RuleSem A) (boost : Option Int) (g : Grammar A) :
    ∃ rule, callParseSimpleRule uni H [.rule ⟨some (printRule s), sem, boost⟩, .flag write] = .ok rule ∧
      rule.ante = ⟨s.name, s.args, .relation, false, false⟩ ∧ rule.cons = itemsConstituents s.items s.last ∧ rule.sem = sem ∧
      (g.addRule rule).findRules s.name s.args.length = g.findRules s.name s.args.length ++ ruleVariants rule := by
  refine ⟨GRule.new H ⟨s.name, s.args, .relation, false, false⟩ (itemsConstituents s.items s.last) sem (boost.getD 0), ?_, rfl, rfl, rfl, ?_⟩
  · simp only [callParseSimpleRule, parseSimpleRule, C40_round_trip_partial h]
  · rw [findRules_addRule]
    simp [GRule.new]

/-- The hypothesis of `C59_add_rule_partial` is met. -/
example (sem : RuleSem A) (g : Grammar A) : ∃ rule : GRule A, (g.addRule rule).findRules ['s'] 1 = g.findRules ['s'] 1 ++ ruleVariants rule := by
  obtain ⟨rule, -, -, -, -, h⟩ := C59_add_rule_partial (uni := fun _ => false) (H := fun _ _ => 0) (c40Rule_ok _) sem none g
  exact ⟨rule, h⟩

end

end Verif
