import Verif.SqlSources

/-!
# Lemmas: reading the statements back
-/

namespace Verif.Sql

/-- A word: a letter or underscore, and then letters, digits and underscores. -/
def isWord : Name → Bool
  | [] => false
  | c :: cs => isStart c && cs.all isInner

theorem isInner_of_isStart {c : Char} (h : isStart c = true) : isInner c = true := by
  simp only [isStart, isInner, Char.isAlphanum, Bool.or_eq_true] at h ⊢
  rcases h with h | h
  · exact .inl (.inl h)
  · exact .inr h

theorem tokens_inner (st : Style) (rest : List Char) : ∀ (cs w : Name), cs.all isInner = true →
    tokens st (.word w) (cs ++ rest) = tokens st (.word (w ++ cs)) rest
  | [], w, _ => by simp
  | c :: cs, w, h => by
    simp only [List.all_cons, Bool.and_eq_true] at h
    rw [List.cons_append, tokens, if_pos h.1, tokens_inner st rest cs (w ++ [c]) h.2, List.append_assoc]
    rfl

/-- A word is read to its end. -/
theorem tokens_word {st : Style} {w : Name} (rest : List Char) (h : isWord w = true) :
    tokens st .gap (w ++ rest) = tokens st (.word w) rest := by
  cases w with
  | nil => cases h
  | cons c cs =>
    simp only [isWord, Bool.and_eq_true] at h
    rw [List.cons_append, tokens, if_pos h.1, tokens_inner st rest cs [c] h.2]
    rfl

theorem tokens_end (st : Style) (w : Name) : tokens st (.word w) [] = some [.word w] := by rw [tokens]

theorem tokens_space (st : Style) (w : Name) (rest : List Char) :
    tokens st (.word w) (' ' :: rest) = (tokens st .gap rest).map (.word w :: ·) := by
  rw [tokens, if_neg (by decide), if_pos rfl]

theorem tokens_comma (st : Style) (w : Name) (rest : List Char) :
    tokens st (.word w) (',' :: rest) = (tokens st .gap rest).map (fun ts => .word w :: .comma :: ts) := by
  rw [tokens, if_neg (by decide), if_neg (by decide), if_pos rfl, Option.map_map]
  rfl

theorem tokens_closing (st : Style) (w : Name) (rest : List Char) :
    tokens st (.word w) (')' :: rest) = (tokens st .gap rest).map (fun ts => .word w :: .closing :: ts) := by
  rw [tokens, if_neg (by decide), if_neg (by decide), if_neg (by decide), if_neg (by decide), if_pos rfl, Option.map_map]
  rfl

theorem tokens_equals (st : Style) (w : Name) (rest : List Char) :
    tokens st (.word w) ('=' :: rest) = (tokens st .gap rest).map (fun ts => .word w :: .equals :: ts) := by
  rw [tokens, if_neg (by decide), if_neg (by decide), if_neg (by decide), if_neg (by decide), if_neg (by decide), if_pos rfl, Option.map_map]
  rfl

theorem tokens_gap_space (st : Style) (rest : List Char) : tokens st .gap (' ' :: rest) = tokens st .gap rest := by
  rw [tokens, if_neg (by decide), if_pos rfl]

theorem tokens_gap_equals (st : Style) (rest : List Char) : tokens st .gap ('=' :: rest) = (tokens st .gap rest).map (.equals :: ·) := by
  rw [tokens, if_neg (by decide), if_neg (by decide), if_neg (by decide), if_neg (by decide), if_neg (by decide), if_pos rfl]

theorem tokens_gap_comma (st : Style) (rest : List Char) : tokens st .gap (',' :: rest) = (tokens st .gap rest).map (.comma :: ·) := by
  rw [tokens, if_neg (by decide), if_neg (by decide), if_pos rfl]

theorem tokens_gap_opening (st : Style) (rest : List Char) : tokens st .gap ('(' :: rest) = (tokens st .gap rest).map (.opening :: ·) := by
  rw [tokens, if_neg (by decide), if_neg (by decide), if_neg (by decide), if_pos rfl]

theorem tokens_gap_closing (st : Style) (rest : List Char) : tokens st .gap (')' :: rest) = (tokens st .gap rest).map (.closing :: ·) := by
  rw [tokens, if_neg (by decide), if_neg (by decide), if_neg (by decide), if_neg (by decide), if_pos rfl]

theorem tokens_placeholder (st : Style) (rest : List Char) :
    tokens st .gap (st.placeholder ++ rest) = (tokens st .gap rest).map (.placeholder :: ·) := by
  cases st with
  | qmark =>
    show tokens .qmark .gap ('?' :: rest) = _
    rw [tokens, if_neg (by decide), if_neg (by decide), if_neg (by decide), if_neg (by decide), if_neg (by decide), if_neg (by decide),
      if_pos ⟨rfl, rfl⟩]
  | percent =>
    show tokens .percent .gap ('%' :: 's' :: rest) = _
    rw [tokens, if_neg (by decide), if_neg (by decide), if_neg (by decide), if_neg (by decide), if_neg (by decide), if_neg (by decide),
      if_neg (by decide), if_pos ⟨rfl, rfl⟩, tokens, if_pos rfl]

/-! ## Lists of names -/

/-- The tokens of names with commas. -/
def nameTokens : List Name → List Token
  | [] => []
  | [c] => [.word c]
  | c :: cs => .word c :: .comma :: nameTokens cs

theorem tokens_names {st : Style} (cs : List Name) (hc : ∀ c ∈ cs, isWord c = true) (hne : cs ≠ []) (rest : List Char) :
    ∃ pre w, nameTokens cs = pre ++ [.word w] ∧
      tokens st .gap (joinWith [','] cs ++ rest) = (tokens st (.word w) rest).map (pre ++ ·) := by
  induction cs with
  | nil => exact absurd rfl hne
  | cons c cs ih =>
    cases cs with
    | nil => exact ⟨[], c, rfl, by simp [joinWith, tokens_word rest (hc c (by simp))]⟩
    | cons c' cs =>
      obtain ⟨pre, w, h1, h2⟩ := ih (fun x hx => hc x (List.mem_cons_of_mem _ hx)) (by simp)
      refine ⟨.word c :: .comma :: pre, w, by rw [nameTokens, h1]; rfl; simp, ?_⟩
      rw [joinWith, List.append_assoc, List.append_assoc, tokens_word _ (hc c (by simp)), List.cons_append, tokens_comma, List.nil_append, h2,
        Option.map_map]
      rfl
      simp

theorem names_tokens {d : Dialect} (rest : List Token) (hr : ∀ ts, rest ≠ .comma :: ts) : ∀ cs : List Name, cs ≠ [] → (∀ c ∈ cs, d.taken c = false) →
    names d (nameTokens cs ++ rest) = some (cs, rest)
  | [], h, _ => absurd rfl h
  | [c], _, h => by
    rw [nameTokens, List.cons_append, List.nil_append, names, h c (by simp)]
    · rfl
    · exact fun ts e => hr ts e
  | c :: c' :: cs, _, h => by
    rw [nameTokens, List.cons_append, List.cons_append, names, h c (by simp),
      names_tokens rest hr (c' :: cs) (by simp) fun x hx => h x (List.mem_cons_of_mem _ hx)]
    · rfl
    · simp

/-! ## Conditions -/

/-- The columns that have a value, with their values. -/
def given (cs : List Name) (vs : List Value) : List (Name × Value) := (cs.zip vs).filter fun p => decide (p.2 ≠ .none)

/-- The text of the conditions of a `SELECT`. -/
def whereText (st : Style) (gs : List (Name × Value)) : List Char := gs.flatMap fun g => [' ', 'A', 'N', 'D', ' '] ++ g.1 ++ ['='] ++ st.placeholder

/-- The tokens of one condition. -/
def testTokens (c : Name) : List Token := [.word c, .equals, .placeholder]

/-- The tokens of the conditions of a `SELECT`. -/
def whereTokens (cs : List Name) : List Token := cs.flatMap fun c => .word ['A', 'N', 'D'] :: testTokens c

theorem whereLoop_given (st : Style) : ∀ (cs : List Name) (vs : List Value) (text : List Char) (ps : List Value),
    whereLoop st.placeholder cs vs text ps = (text ++ whereText st (given cs vs), ps ++ (given cs vs).map Prod.snd)
  | [], vs, text, ps => by simp [whereLoop, given, whereText]
  | c :: cs, [], text, ps => by simp [whereLoop, given, whereText]
  | c :: cs, v :: vs, text, ps => by
    by_cases hv : v = .none
    · rw [whereLoop, if_pos hv, whereLoop_given st cs vs]
      simp [given, hv]
    · rw [whereLoop, if_neg hv, whereLoop_given st cs vs]
      simp [given, hv, whereText]

theorem tokens_gap_where (st : Style) : ∀ gs : List (Name × Value), (∀ g ∈ gs, isWord g.1 = true) →
    tokens st .gap (whereText st gs) = some (whereTokens (gs.map Prod.fst))
  | [], _ => by simp [whereText, whereTokens, tokens]
  | g :: gs, h => by
    have e : whereText st (g :: gs) = ' ' :: (['A', 'N', 'D'] ++ (' ' :: (g.1 ++ ('=' :: (st.placeholder ++ whereText st gs))))) := by
      simp [whereText]
    rw [e, tokens_gap_space, tokens_word _ (by decide), tokens_space, tokens_word _ (h g (by simp)), tokens_equals, tokens_placeholder,
      tokens_gap_where st gs fun x hx => h x (List.mem_cons_of_mem _ hx)]
    simp [whereTokens, testTokens]

theorem tokens_word_where (st : Style) (w : Name) (gs : List (Name × Value)) (h : ∀ g ∈ gs, isWord g.1 = true) :
    tokens st (.word w) (whereText st gs) = some (.word w :: whereTokens (gs.map Prod.fst)) := by
  cases gs with
  | nil => simp [whereText, whereTokens, tokens]
  | cons g gs =>
    have := tokens_gap_where st (g :: gs) h
    have e : ∃ rest, whereText st (g :: gs) = ' ' :: rest := ⟨_, by simp [whereText]; rfl⟩
    obtain ⟨rest, e⟩ := e
    rw [e] at this ⊢
    rw [tokens_gap_space] at this
    rw [tokens_space, this]
    rfl

theorem tests_tokens {d : Dialect} : ∀ (c : Name) (cs : List Name), d.taken c = false → (∀ x ∈ cs, d.taken x = false) →
    tests d (testTokens c ++ whereTokens cs) = some ((c :: cs).map .equals)
  | c, [], hc, _ => by simp [testTokens, whereTokens, tests, hc]
  | c, c' :: cs, hc, h => by
    have ih := tests_tokens c' cs (h c' (by simp)) fun x hx => h x (List.mem_cons_of_mem _ hx)
    have e : testTokens c ++ whereTokens (c' :: cs) =
        .word c :: .equals :: .placeholder :: .word ['A', 'N', 'D'] :: (testTokens c' ++ whereTokens cs) := by simp [testTokens, whereTokens]
    have ha : decide (fold ['A', 'N', 'D'] ≠ ['a', 'n', 'd']) = false := by decide
    rw [e, tests, ih, hc, ha]
    simp

theorem tests_true {d : Dialect} (cs : List Name) (h : ∀ x ∈ cs, d.taken x = false) :
    tests d (.word ['T', 'R', 'U', 'E'] :: whereTokens cs) = some (.yes :: cs.map .equals) := by
  cases cs with
  | nil => simp [whereTokens, tests]; decide
  | cons c cs =>
    have e : whereTokens (c :: cs) = .word ['A', 'N', 'D'] :: (testTokens c ++ whereTokens cs) := by simp [whereTokens]
    rw [e, tests, if_pos (by decide), tests_tokens c cs (h c (by simp)) fun x hx => h x (List.mem_cons_of_mem _ hx)]
    rfl

/-! ## The statements -/

/-- A table or column can have this name: it is a word that is not taken. -/
structure Dialect.Named (d : Dialect) (w : Name) : Prop where
  word : isWord w = true
  free : d.taken w = false

theorem given_mem {cs : List Name} {vs : List Value} {g : Name × Value} (h : g ∈ given cs vs) : g.1 ∈ cs ∧ g.2 ∈ vs ∧ g.2 ≠ .none := by
  simp only [given, List.mem_filter, decide_eq_true_eq] at h
  exact ⟨(List.of_mem_zip h.1).1, (List.of_mem_zip h.1).2, h.2⟩

theorem read_select {d : Dialect} {st : Style} {t : Name} {cs : List Name} (vs : List Value) (ht : d.Named t) (hc : ∀ c ∈ cs, d.Named c)
    (hne : cs ≠ []) : (tokens st .gap (selectSql st.placeholder t cs vs).1).bind (statement d) =
      some (.select cs t (.yes :: (given cs vs).map fun g => .equals g.1)) := by
  obtain ⟨pre, w, e1, e2⟩ := tokens_names (st := st) cs (fun c h => (hc c h).word) hne
    (' ' :: (['F', 'R', 'O', 'M'] ++ (' ' :: (t ++ (' ' :: (['W', 'H', 'E', 'R', 'E'] ++ (' ' :: (['T', 'R', 'U', 'E'] ++ whereText st (given cs vs)))))))))
  have e : (selectSql st.placeholder t cs vs).1 = ['S', 'E', 'L', 'E', 'C', 'T'] ++ (' ' :: (joinWith [','] cs ++
      (' ' :: (['F', 'R', 'O', 'M'] ++ (' ' :: (t ++ (' ' :: (['W', 'H', 'E', 'R', 'E'] ++ (' ' :: (['T', 'R', 'U', 'E'] ++ whereText st (given cs vs))))))))))) := by
    simp [selectSql, whereLoop_given]
  have hg : ∀ g ∈ given cs vs, isWord g.1 = true := fun g hg => (hc _ (given_mem hg).1).word
  rw [e, tokens_word _ (by decide), tokens_space, e2, tokens_space, tokens_word _ (by decide), tokens_space, tokens_word _ ht.word, tokens_space,
    tokens_word _ (by decide), tokens_space, tokens_word _ (by decide), tokens_word_where st _ _ hg]
  simp only [Option.map_some, Option.bind_some]
  rw [statement, if_pos (by decide)]
  have e3 : pre ++ Token.word w :: Token.word ['F', 'R', 'O', 'M'] :: Token.word t :: Token.word ['W', 'H', 'E', 'R', 'E'] ::
      Token.word ['T', 'R', 'U', 'E'] :: whereTokens ((given cs vs).map Prod.fst) = nameTokens cs ++ (Token.word ['F', 'R', 'O', 'M'] :: Token.word t ::
      Token.word ['W', 'H', 'E', 'R', 'E'] :: Token.word ['T', 'R', 'U', 'E'] :: whereTokens ((given cs vs).map Prod.fst)) := by
    rw [e1]; simp
  rw [e3, selectOf, names_tokens _ (by simp) cs hne fun c h => (hc c h).free]
  simp only [Option.bind_eq_bind, Option.bind_some, keyword, if_pos (show fold ['F', 'R', 'O', 'M'] = ['f', 'r', 'o', 'm'] by decide), name, ht.free,
    if_pos (show fold ['W', 'H', 'E', 'R', 'E'] = ['w', 'h', 'e', 'r', 'e'] by decide), Bool.false_eq_true, if_false]
  rw [tests_true _ fun x hx => by
    obtain ⟨g, hg, rfl⟩ := List.mem_map.1 hx
    exact (hc _ (given_mem hg).1).free]
  simp

/-- The text of the conditions of a `DELETE`. -/
def deleteText (cs : List Name) : List Char := joinWith ['A', 'N', 'D', ' '] (cs.map fun c => c ++ [' ', '=', ' ', '?', ' '])

theorem tokens_test (w : Name) (rest : List Char) (h : isWord w = true) :
    tokens .qmark .gap (w ++ [' ', '=', ' ', '?', ' '] ++ rest) = (tokens .qmark .gap rest).map (testTokens w ++ ·) := by
  rw [List.append_assoc, tokens_word _ h]
  show tokens .qmark (.word w) (' ' :: '=' :: ' ' :: (Style.qmark.placeholder ++ (' ' :: rest))) = _
  rw [tokens_space, tokens_gap_equals, tokens_gap_space, tokens_placeholder, tokens_gap_space]
  simp only [Option.map_map]
  rfl

theorem tokens_delete : ∀ (c : Name) (cs : List Name), isWord c = true → (∀ x ∈ cs, isWord x = true) →
    tokens .qmark .gap (deleteText (c :: cs)) = some (testTokens c ++ whereTokens cs)
  | c, [], hc, _ => by
    have := tokens_test c [] hc
    rw [List.append_nil] at this
    simp only [deleteText, List.map_cons, List.map_nil, joinWith, this, tokens]
    simp [whereTokens]
  | c, c' :: cs, hc, h => by
    have ih := tokens_delete c' cs (h c' (by simp)) fun x hx => h x (List.mem_cons_of_mem _ hx)
    have e : deleteText (c :: c' :: cs) = c ++ [' ', '=', ' ', '?', ' '] ++ (['A', 'N', 'D'] ++ (' ' :: deleteText (c' :: cs))) := by
      simp [deleteText, joinWith]
    rw [e, tokens_test _ _ hc, tokens_word _ (by decide), tokens_space, ih]
    simp [whereTokens]

theorem read_delete {d : Dialect} {t : Name} {cs : List Name} (vs : List Value) (ht : d.Named t) (hc : ∀ c ∈ cs, d.Named c)
    (hne : cs ≠ []) : (tokens .qmark .gap (deleteSql t cs vs).1).bind (statement d) = some (.delete t (cs.map .equals)) := by
  obtain ⟨c, cs, rfl⟩ := List.exists_cons_of_ne_nil hne
  have e : (deleteSql t (c :: cs) vs).1 = ['D', 'E', 'L', 'E', 'T', 'E'] ++ (' ' :: (['F', 'R', 'O', 'M'] ++ (' ' :: (t ++
      (' ' :: (['W', 'H', 'E', 'R', 'E'] ++ (' ' :: deleteText (c :: cs)))))))) := by
    simp [deleteSql, deleteText]
  rw [e, tokens_word _ (by decide), tokens_space, tokens_word _ (by decide), tokens_space, tokens_word _ ht.word, tokens_space,
    tokens_word _ (by decide), tokens_space, tokens_delete c cs (hc c (by simp)).word fun x hx => (hc x (List.mem_cons_of_mem _ hx)).word]
  simp only [Option.map_some, Option.bind_some]
  rw [statement, if_neg (by decide), if_neg (by decide), if_pos (by decide), deleteOf]
  simp only [Option.bind_eq_bind, Option.bind_some, keyword, if_pos (show fold ['F', 'R', 'O', 'M'] = ['f', 'r', 'o', 'm'] by decide), name, ht.free,
    if_pos (show fold ['W', 'H', 'E', 'R', 'E'] = ['w', 'h', 'e', 'r', 'e'] by decide), Bool.false_eq_true, if_false]
  rw [tests_tokens c cs (hc c (by simp)).free fun x hx => (hc x (List.mem_cons_of_mem _ hx)).free]
  rfl

/-- The tokens of placeholders with commas. -/
def placeTokens : Nat → List Token
  | 0 => []
  | 1 => [.placeholder]
  | n + 1 => .placeholder :: .comma :: placeTokens n

theorem tokens_places (rest : List Char) : ∀ vs : List Value, vs ≠ [] →
    tokens .qmark .gap (joinWith [',', ' '] (vs.map fun _ => ['?']) ++ rest) = (tokens .qmark .gap rest).map (placeTokens vs.length ++ ·)
  | [], h => absurd rfl h
  | [v], _ => by
    show tokens .qmark .gap (Style.qmark.placeholder ++ rest) = _
    rw [tokens_placeholder]
    rfl
  | v :: v' :: vs, _ => by
    have ih := tokens_places rest (v' :: vs) (by simp)
    have e : joinWith [',', ' '] ((v :: v' :: vs).map fun _ => ['?']) ++ rest =
        Style.qmark.placeholder ++ (',' :: ' ' :: (joinWith [',', ' '] ((v' :: vs).map fun _ => ['?']) ++ rest)) := by
      simp [joinWith, Style.placeholder]
    rw [e, tokens_placeholder, tokens_gap_comma, tokens_gap_space, ih]
    simp only [Option.map_map, List.length_cons, placeTokens]
    rfl

theorem places_tokens (rest : List Token) (hr : ∀ ts, rest ≠ .comma :: ts) : ∀ n, 0 < n → places (placeTokens n ++ rest) = some (n, rest)
  | 0, h => absurd h (by simp)
  | 1, _ => by
    rw [placeTokens, List.cons_append, List.nil_append, places]
    exact fun ts e => hr ts e
  | n + 2, _ => by
    rw [placeTokens, List.cons_append, List.cons_append, places, places_tokens rest hr (n + 1) (by omega)]
    · rfl
    · simp

theorem read_insert {d : Dialect} {t : Name} {cs : List Name} (vs : List Value) (ht : d.Named t) (hc : ∀ c ∈ cs, d.Named c)
    (hne : cs ≠ []) (hv : vs ≠ []) : (tokens .qmark .gap (insertSql t cs vs).1).bind (statement d) = some (.insert t cs vs.length) := by
  obtain ⟨pre, w, e1, e2⟩ := tokens_names (st := .qmark) cs (fun c h => (hc c h).word) hne
    (')' :: ' ' :: (['V', 'A', 'L', 'U', 'E', 'S'] ++ (' ' :: '(' :: (joinWith [',', ' '] (vs.map fun _ => ['?']) ++ [')']))))
  have e : (insertSql t cs vs).1 = ['I', 'N', 'S', 'E', 'R', 'T'] ++ (' ' :: (['O', 'R'] ++ (' ' :: (['I', 'G', 'N', 'O', 'R', 'E'] ++ (' ' ::
      (['I', 'N', 'T', 'O'] ++ (' ' :: (t ++ (' ' :: '(' :: (joinWith [','] cs ++
      (')' :: ' ' :: (['V', 'A', 'L', 'U', 'E', 'S'] ++ (' ' :: '(' :: (joinWith [',', ' '] (vs.map fun _ => ['?']) ++ [')'])))))))))))))) := by
    simp [insertSql]
  rw [e, tokens_word _ (by decide), tokens_space, tokens_word _ (by decide), tokens_space, tokens_word _ (by decide), tokens_space,
    tokens_word _ (by decide), tokens_space, tokens_word _ ht.word, tokens_space, tokens_gap_opening, e2, tokens_closing, tokens_gap_space,
    tokens_word _ (by decide), tokens_space, tokens_gap_opening, tokens_places _ vs hv, tokens_gap_closing]
  simp only [tokens, Option.map_some, Option.bind_some]
  rw [statement, if_neg (by decide), if_pos (by decide), insertOf]
  have e3 : pre ++ Token.word w :: Token.closing :: Token.word ['V', 'A', 'L', 'U', 'E', 'S'] :: Token.opening :: (placeTokens vs.length ++ [Token.closing]) =
      nameTokens cs ++ (Token.closing :: Token.word ['V', 'A', 'L', 'U', 'E', 'S'] :: Token.opening :: (placeTokens vs.length ++ [Token.closing])) := by
    rw [e1]; simp
  simp only [Option.bind_eq_bind, Option.bind_some, keyword, token, name, ht.free, Bool.false_eq_true, if_false, if_true, e3,
    if_pos (show fold ['O', 'R'] = ['o', 'r'] by decide), if_pos (show fold ['I', 'G', 'N', 'O', 'R', 'E'] = ['i', 'g', 'n', 'o', 'r', 'e'] by decide),
    if_pos (show fold ['I', 'N', 'T', 'O'] = ['i', 'n', 't', 'o'] by decide),
    names_tokens (Token.closing :: Token.word ['V', 'A', 'L', 'U', 'E', 'S'] :: Token.opening :: (placeTokens vs.length ++ [Token.closing])) (by simp) cs
      hne fun c h => (hc c h).free,
    if_pos (show fold ['V', 'A', 'L', 'U', 'E', 'S'] = ['v', 'a', 'l', 'u', 'e', 's'] by decide),
    places_tokens [Token.closing] (by simp) vs.length (List.length_pos_iff.2 hv)]

end Verif.Sql
