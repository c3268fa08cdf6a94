import Verif.Grammar

/-!
# Tokens

The tokenizers of `richard/processor/parser/helper/SimpleGrammarRulesParser.py` and `richard/module/helper/SimpleInferenceRuleParser.py`: a
regular expression with alternatives, used with `re.findall`.
-/

namespace Verif

/-- An alternative of the regular expression: what it matches at the start of a text, and what follows. -/
abbrev Matcher := Str → Option (Str × Str)

/-- Python's `\w` on a character; `uni` tells which characters outside ASCII are letters or digits (nothing is assumed about it). -/
def isWordChar (uni : Char → Bool) (c : Char) : Bool := c.isAlphanum || c == '_' || (decide (128 ≤ c.toNat) && uni c)

/-- A fixed text, as `'->'` in `SimpleGrammarRulesParser.py:21`. -/
def mLit (s : Str) : Matcher := fun cs => if s.isPrefixOf cs then some (s, cs.drop s.length) else none

/-- The rest of a quoted text: `(?:\\'|[^'])+'` of `SimpleGrammarRulesParser.py:24-26` and `SimpleInferenceRuleParser.py:25-26`; `q` is the
quote. The flag tells whether the loop has been passed once. The alternatives are tried in the order of a backtracking matcher. -/
def quotedRest (q : Char) : Bool → Matcher
  | _, [] => none
  | passed, c :: rest =>
    ((if c = '\\' then
      match rest with
      | c2 :: rest2 => if c2 = q then (quotedRest q true rest2).map fun r => (c :: c2 :: r.1, r.2) else none
      | [] => none
      else none).or
    (if c = q then none else (quotedRest q true rest).map fun r => (c :: r.1, r.2))).or
    (if c = q && passed then some ([c], rest) else none)

/-- A quoted text, `SimpleGrammarRulesParser.py:24-26`, `SimpleInferenceRuleParser.py:25-26`. -/
def mQuoted (q : Char) : Matcher
  | c :: rest => if c = q then (quotedRest q false rest).map fun r => (c :: r.1, r.2) else none
  | [] => none

/-- `\w+`, `SimpleGrammarRulesParser.py:28`, `SimpleInferenceRuleParser.py:28`. -/
def mWord (uni : Char → Bool) : Matcher := fun cs =>
  match cs.takeWhile (isWordChar uni) with
  | [] => none
  | w => some (w, cs.dropWhile (isWordChar uni))

/-- `[A-Z]\w*`, `SimpleGrammarRulesParser.py:27`, `SimpleInferenceRuleParser.py:27`. -/
def mVar (uni : Char → Bool) : Matcher
  | c :: rest => if c.isUpper then some (c :: rest.takeWhile (isWordChar uni), rest.dropWhile (isWordChar uni)) else none
  | [] => none

/-- `\d+`, `SimpleInferenceRuleParser.py:24`. Simplified: the digits are those of ASCII. -/
def mInt : Matcher := fun cs =>
  match cs.takeWhile Char.isDigit with
  | [] => none
  | w => some (w, cs.dropWhile Char.isDigit)

/-- `\d+\.\d+`, `SimpleInferenceRuleParser.py:23`. Simplified: the digits are those of ASCII. -/
def mFloat : Matcher := fun cs =>
  match mInt cs with
  | some (n, '.' :: rest) =>
    match mInt rest with
    | some (f, rest2) => some (n ++ '.' :: f, rest2)
    | none => none
  | _ => none

/-- `#.*\n`, `SimpleInferenceRuleParser.py:29`. -/
def mComment : Matcher
  | '#' :: rest =>
    match rest.dropWhile (· ≠ '\n') with
    | [] => none
    | c :: rest2 => some ('#' :: (rest.takeWhile (· ≠ '\n') ++ [c]), rest2)
  | _ => none

/-- The first alternative that matches. -/
def firstMatch : List Matcher → Matcher
  | [], _ => none
  | m :: ms, cs => (m cs).or (firstMatch ms cs)

/-- `re.findall` on a text of at most `n` characters: characters at which no alternative matches are passed over. -/
def findallN (ms : List Matcher) : Nat → Str → List Str
  | 0, _ => []
  | _ + 1, [] => []
  | n + 1, c :: cs =>
    match firstMatch ms (c :: cs) with
    | some (t, rest) => t :: findallN ms n rest
    | none => findallN ms n cs

/-- Python's `re.findall`. -/
def findall (ms : List Matcher) (cs : Str) : List Str := findallN ms cs.length cs

/-- Python's `s.replace("\\q", "q")` for a character `q`: `SimpleGrammarRulesParser.py:181,193,197`, `SimpleInferenceRuleParser.py:242,246`. -/
def unescape (q : Char) : Str → Str
  | [] => []
  | [c] => [c]
  | c :: c2 :: rest => if c = '\\' ∧ c2 = q then q :: unescape q rest else c :: unescape q (c2 :: rest)

/-- `token[1:-1]`. -/
def inner (token : Str) : Str := token.tail.dropLast

/-! ## Lemmas -/

/-- What an alternative matches is the start of the text and not empty. -/
def Matcher.Good (m : Matcher) : Prop := ∀ cs t rest, m cs = some (t, rest) → cs = t ++ rest ∧ t ≠ []

theorem mLit_good {s : Str} (h : s ≠ []) : (mLit s).Good := by
  intro cs t rest hm
  unfold mLit at hm
  split at hm
  · rename_i hp
    cases hm
    obtain ⟨r, rfl⟩ := List.isPrefixOf_iff_prefix.1 hp
    simp [h]
  · cases hm

theorem quotedRest_cons (q : Char) (passed : Bool) (c : Char) (rest : Str) : quotedRest q passed (c :: rest) =
    ((if c = '\\' then
      match rest with
      | c2 :: rest2 => if c2 = q then (quotedRest q true rest2).map fun r => (c :: c2 :: r.1, r.2) else none
      | [] => none
      else none).or
    (if c = q then none else (quotedRest q true rest).map fun r => (c :: r.1, r.2))).or
    (if c = q && passed then some ([c], rest) else none) := by
  cases rest <;> rfl

theorem quotedRest_good (q : Char) : ∀ (n : Nat) (cs : Str), cs.length = n → ∀ b t rest, quotedRest q b cs = some (t, rest) → cs = t ++ rest ∧ t ≠ [] := by
  intro n
  induction n using Nat.strongRecOn with
  | ind n ih =>
    intro cs hn b t rest h
    cases cs with
    | nil => simp [quotedRest] at h
    | cons c cs =>
      rw [quotedRest_cons, Option.or_eq_some_iff, Option.or_eq_some_iff] at h
      rcases h with (h | ⟨-, h⟩) | ⟨-, h⟩
      · split at h
        · cases cs with
          | nil => cases h
          | cons c2 cs2 =>
            dsimp only at h
            split at h
            · rw [Option.map_eq_some_iff] at h
              obtain ⟨⟨a, b2⟩, h1, h2⟩ := h
              cases h2
              obtain ⟨h3, -⟩ := ih cs2.length (by simp at hn; omega) cs2 rfl _ _ _ h1
              simp [h3]
            · cases h
        · cases h
      · split at h
        · cases h
        · rw [Option.map_eq_some_iff] at h
          obtain ⟨⟨a, b2⟩, h1, h2⟩ := h
          cases h2
          obtain ⟨h3, -⟩ := ih cs.length (by simp at hn; omega) cs rfl _ _ _ h1
          simp [h3]
      · split at h
        · cases h; simp
        · cases h

theorem mQuoted_good (q : Char) : (mQuoted q).Good := by
  intro cs t rest h
  cases cs with
  | nil => cases h
  | cons c cs =>
    simp only [mQuoted] at h
    split at h
    · rw [Option.map_eq_some_iff] at h
      obtain ⟨⟨a, b⟩, h1, h2⟩ := h
      cases h2
      obtain ⟨h3, -⟩ := quotedRest_good q _ _ rfl _ _ _ h1
      simp [h3]
    · cases h

theorem takeWhile_good {p : Char → Bool} {cs t rest : Str}
    (h : (match cs.takeWhile p with
      | [] => none
      | w => some (w, cs.dropWhile p)) = some (t, rest)) : cs = t ++ rest ∧ t ≠ [] := by
  cases hw : cs.takeWhile p with
  | nil => rw [hw] at h; cases h
  | cons x xs =>
    rw [hw] at h
    cases h
    refine ⟨?_, by simp⟩
    rw [← hw, List.takeWhile_append_dropWhile]

theorem mWord_good (uni : Char → Bool) : (mWord uni).Good := fun _ _ _ h => takeWhile_good h

theorem mInt_good : mInt.Good := fun _ _ _ h => takeWhile_good h

theorem mVar_good (uni : Char → Bool) : (mVar uni).Good := by
  intro cs t rest h
  cases cs with
  | nil => cases h
  | cons c cs =>
    simp only [mVar] at h
    split at h
    · cases h; simp [List.takeWhile_append_dropWhile]
    · cases h

theorem mFloat_good : mFloat.Good := by
  intro cs t rest h
  unfold mFloat at h
  split at h
  · rename_i n r hn
    split at h
    · rename_i f r2 hf
      cases h
      obtain ⟨h1, -⟩ := mInt_good _ _ _ hn
      obtain ⟨h2, -⟩ := mInt_good _ _ _ hf
      simp [h1, h2]
    · cases h
  · cases h

theorem mComment_good : mComment.Good := by
  intro cs t rest h
  unfold mComment at h
  split at h
  · rename_i r
    split at h
    · cases h
    · rename_i c r2 hd
      cases h
      refine ⟨?_, by simp⟩
      have := List.takeWhile_append_dropWhile (p := fun x : Char => decide (x ≠ '\n')) (l := r)
      rw [hd] at this
      simp only [List.cons_append, List.append_assoc, List.nil_append, List.cons.injEq, true_and]
      exact this.symm
  · cases h

theorem firstMatch_good {ms : List Matcher} (hm : ∀ m ∈ ms, m.Good) : (firstMatch ms).Good := by
  induction ms with
  | nil => intro cs t rest h; cases h
  | cons m ms ih =>
    intro cs t rest h
    rw [firstMatch, Option.or_eq_some_iff] at h
    rcases h with h | ⟨-, h⟩
    · exact hm m (by simp) _ _ _ h
    · exact ih (fun m h => hm m (List.mem_cons_of_mem _ h)) _ _ _ h

theorem findallN_enough {ms : List Matcher} (hm : ∀ m ∈ ms, m.Good) :
    ∀ (n : Nat) (cs : Str), cs.length ≤ n → findallN ms n cs = findall ms cs := by
  have key : ∀ (n m : Nat) (cs : Str), cs.length ≤ n → cs.length ≤ m → findallN ms n cs = findallN ms m cs := by
    intro n
    induction n with
    | zero =>
      intro m cs hn _
      have : cs = [] := List.length_eq_zero_iff.1 (by omega)
      subst this
      cases m <;> rfl
    | succ n ih =>
      intro m cs hn hm'
      cases cs with
      | nil => cases m <;> rfl
      | cons c cs =>
        cases m with
        | zero => simp at hm'
        | succ m =>
          rw [findallN, findallN]
          cases hf : firstMatch ms (c :: cs) with
          | none => simp only; exact ih _ _ (by simpa using hn) (by simpa using hm')
          | some r =>
            obtain ⟨t, rest⟩ := r
            obtain ⟨h1, h2⟩ := firstMatch_good hm _ _ _ hf
            have h3 : (c :: cs).length = t.length + rest.length := by rw [h1, List.length_append]
            have h4 : 0 < t.length := List.length_pos_iff.2 h2
            simp only [List.length_cons] at hn hm' h3
            simp only
            rw [ih m rest (by omega) (by omega)]
  intro n cs h
  exact key _ _ _ h (Nat.le_refl _)

/-- A token is found. -/
theorem findall_token {ms : List Matcher} (hm : ∀ m ∈ ms, m.Good) {cs t rest : Str} (h : firstMatch ms cs = some (t, rest)) :
    findall ms cs = t :: findall ms rest := by
  obtain ⟨h1, h2⟩ := firstMatch_good hm _ _ _ h
  cases cs with
  | nil => have := List.append_eq_nil_iff.1 h1.symm; exact absurd this.1 h2
  | cons c cs =>
    have h3 : (c :: cs).length = t.length + rest.length := by rw [h1, List.length_append]
    have h4 : 0 < t.length := List.length_pos_iff.2 h2
    conv => lhs; unfold findall
    rw [List.length_cons, findallN, h]
    simp only
    rw [findallN_enough hm _ _ (by simp only [List.length_cons] at h3; omega)]

/-- A character that starts no token is passed over. -/
theorem findall_skip {ms : List Matcher} {c : Char} {cs : Str} (h : firstMatch ms (c :: cs) = none) :
    findall ms (c :: cs) = findall ms cs := by
  conv => lhs; unfold findall
  rw [List.length_cons, findallN, h]
  rfl

@[simp] theorem findall_nil (ms : List Matcher) : findall ms [] = [] := rfl

/-- The written form of a text between quotes: quotes are escaped. -/
def escape (q : Char) (s : Str) : Str := s.flatMap fun c => if c = q then ['\\', q] else [c]

theorem quotedRest_escape {q : Char} (hq : q ≠ '\\') (s rest : Str) (b : Bool) (hl : s.getLast? ≠ some '\\') (hb : s ≠ [] ∨ b = true) :
    quotedRest q b (escape q s ++ q :: rest) = some (escape q s ++ [q], rest) := by
  induction s generalizing b with
  | nil =>
    have hb : b = true := by simpa using hb
    subst hb
    show quotedRest q true (q :: rest) = some ([q], rest)
    rw [quotedRest_cons]
    simp [hq]
  | cons c s ih =>
    have hl' : s.getLast? ≠ some '\\' := by
      cases s with
      | nil => simp
      | cons x xs => simpa using hl
    have ih := ih true hl' (Or.inr rfl)
    by_cases hc : c = q
    · subst hc
      have he : escape c (c :: s) = '\\' :: c :: escape c s := by simp [escape]
      rw [he, List.cons_append, List.cons_append, quotedRest_cons]
      simp only [↓reduceIte, ih, Option.map_some, Option.some_or]
      rfl
    · have he : escape q (c :: s) = c :: escape q s := by simp [escape, hc]
      rw [he, List.cons_append, quotedRest_cons, ih]
      have h1 : (if c = '\\' then
          match escape q s ++ q :: rest with
          | c2 :: rest2 => if c2 = q then Option.map (fun r : Str × Str => (c :: c2 :: r.1, r.2)) (quotedRest q true rest2) else none
          | [] => none
          else none) = none := by
        split
        · rename_i hcb
          subst hcb
          cases s with
          | nil => simp at hl
          | cons x xs =>
            by_cases hx : x = q
            · subst hx
              have he : escape x (x :: xs) = '\\' :: x :: escape x xs := by simp [escape]
              rw [he]
              simp only [List.cons_append]
              rw [if_neg (fun h => hq h.symm)]
            · have he : escape q (x :: xs) = x :: escape q xs := by simp [escape, hx]
              rw [he]
              simp only [List.cons_append]
              rw [if_neg hx]
        · rfl
      rw [h1]
      simp [hc]

theorem unescape_escape {q : Char} (hq : q ≠ '\\') (s : Str) (hl : s.getLast? ≠ some '\\') : unescape q (escape q s) = s := by
  induction s with
  | nil => rfl
  | cons c s ih =>
    have hl' : s.getLast? ≠ some '\\' := by
      cases s with
      | nil => simp
      | cons x xs => simpa using hl
    by_cases hc : c = q
    · subst hc
      have he : escape c (c :: s) = '\\' :: c :: escape c s := by simp [escape]
      rw [he, unescape, if_pos ⟨rfl, rfl⟩, ih hl']
    · have he : escape q (c :: s) = c :: escape q s := by simp [escape, hc]
      rw [he]
      cases s with
      | nil => rfl
      | cons x xs =>
        by_cases hx : x = q
        · subst hx
          have he : escape x (x :: xs) = '\\' :: x :: escape x xs := by simp [escape]
          rw [he] at ih ⊢
          rw [unescape, if_neg (fun h => hq h.2.symm), ih hl']
        · have he : escape q (x :: xs) = x :: escape q xs := by simp [escape, hx]
          rw [he] at ih ⊢
          rw [unescape, if_neg (fun h => hx h.2), ih hl']

theorem escape_ne_nil {q : Char} {s : Str} (h : s ≠ []) : escape q s ≠ [] := by
  cases s with
  | nil => exact absurd rfl h
  | cons c s => simp [escape]; split <;> simp

theorem takeWhile_append_stop {p : Char → Bool} {w rest : Str} (hw : ∀ c ∈ w, p c = true) (hr : ∀ c ∈ rest.head?, p c = false) :
    (w ++ rest).takeWhile p = w ∧ (w ++ rest).dropWhile p = rest := by
  induction w with
  | nil =>
    cases rest with
    | nil => simp
    | cons c cs => simp [hr c (by simp)]
  | cons c cs ih =>
    have ih := ih fun x hx => hw x (List.mem_cons_of_mem _ hx)
    simp [hw c (by simp), ih.1, ih.2]

end Verif
