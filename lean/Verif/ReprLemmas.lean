import Verif.Repr

/-!
# The printed form of a value determines the value
-/

namespace Verif

/-! ## Splitting at the first character outside a class -/

/-- The list is empty or starts with a character outside the class. -/
def StopsAt (p : Char → Bool) : List Char → Prop
  | [] => True
  | c :: _ => p c = false

theorem split_unique {p : Char → Bool} {a b r s : List Char} (ha : ∀ c ∈ a, p c = true) (hb : ∀ c ∈ b, p c = true)
    (hr : StopsAt p r) (hs : StopsAt p s) (h : a ++ r = b ++ s) : a = b ∧ r = s := by
  induction a generalizing b with
  | nil =>
    cases b with
    | nil => exact ⟨rfl, h⟩
    | cons c b =>
      simp only [List.nil_append, List.cons_append] at h
      subst h
      have := hb c (by simp)
      simp only [StopsAt] at hr
      rw [hr] at this
      simp at this
  | cons c a ih =>
    cases b with
    | nil =>
      simp only [List.nil_append, List.cons_append] at h
      subst h
      have := ha c (by simp)
      simp only [StopsAt] at hs
      rw [hs] at this
      simp at this
    | cons d b =>
      simp only [List.cons_append, List.cons.injEq] at h
      obtain ⟨rfl, h⟩ := h
      obtain ⟨h1, h2⟩ := ih (fun c hc => ha c (List.mem_cons_of_mem _ hc)) (fun c hc => hb c (List.mem_cons_of_mem _ hc)) h
      exact ⟨by rw [h1], h2⟩

/-! ## Escapes can be decoded -/

/-- Value of a hexadecimal digit. -/
def unhexDigit (c : Char) : Nat := if c.toNat < 58 then c.toNat - 48 else c.toNat - 87

theorem unhexDigit_hexDigit {n : Nat} (h : n < 16) : unhexDigit (hexDigit n) = n := by
  have : n = 0 ∨ n = 1 ∨ n = 2 ∨ n = 3 ∨ n = 4 ∨ n = 5 ∨ n = 6 ∨ n = 7 ∨ n = 8 ∨ n = 9 ∨ n = 10 ∨ n = 11 ∨ n = 12 ∨
    n = 13 ∨ n = 14 ∨ n = 15 := by omega
  rcases this with rfl | rfl | rfl | rfl | rfl | rfl | rfl | rfl | rfl | rfl | rfl | rfl | rfl | rfl | rfl | rfl <;> rfl

/-- Value of hexadecimal digits. -/
def unhex (cs : List Char) : Nat := cs.foldl (fun a c => a * 16 + unhexDigit c) 0

theorem hexFixed_length (w n : Nat) : (hexFixed w n).length = w := by
  induction w generalizing n with
  | zero => rfl
  | succ w ih => simp [hexFixed, ih]

theorem unhex_hexFixed (w n : Nat) (h : n < 16 ^ w) : unhex (hexFixed w n) = n := by
  induction w generalizing n with
  | zero => simp at h; subst h; rfl
  | succ w ih =>
    have hlt : n / 16 < 16 ^ w := by
      rw [Nat.pow_succ] at h
      omega
    simp only [hexFixed, unhex, List.foldl_append, List.foldl_cons, List.foldl_nil]
    have := ih (n / 16) hlt
    simp only [unhex] at this
    rw [this, unhexDigit_hexDigit (Nat.mod_lt _ (by decide))]
    omega

/-- Decoder of one escaped character. -/
def unesc : List Char → Option (Char × List Char)
  | '\\' :: 'n' :: r => some ('\n', r)
  | '\\' :: 'r' :: r => some ('\r', r)
  | '\\' :: 't' :: r => some ('\t', r)
  | '\\' :: 'x' :: r => some (Char.ofNat (unhex (r.take 2)), r.drop 2)
  | '\\' :: 'u' :: r => some (Char.ofNat (unhex (r.take 4)), r.drop 4)
  | '\\' :: 'U' :: r => some (Char.ofNat (unhex (r.take 8)), r.drop 8)
  | '\\' :: c :: r => some (c, r)
  | c :: r => some (c, r)
  | [] => none

theorem unesc_plain {c : Char} (h : c ≠ '\\') (x : List Char) : unesc (c :: x) = some (c, x) := by
  unfold unesc
  split <;> simp_all

theorem Char.ofNat_toNat' (c : Char) : Char.ofNat c.toNat = c := by simp

theorem char_lt (c : Char) : c.toNat < 16 ^ 8 := by
  have := c.valid
  have h2 : c.toNat = c.val.toNat := rfl
  rcases this with h | h
  · rw [h2]; have : c.val.toNat < 0xd800 := h; omega
  · rw [h2]; have : c.val.toNat < 0x110000 := h.2; omega

theorem unesc_escChar {q : Char} (hq : q = '\'' ∨ q = '"') (c : Char) (x : List Char) :
    unesc (escChar q c ++ x) = some (c, x) := by
  unfold escChar
  split
  · rename_i h; subst h; rfl
  split
  · rename_i h; subst h; rcases hq with rfl | rfl <;> rfl
  split
  · rename_i h; subst h; rfl
  split
  · rename_i h; subst h; rfl
  split
  · rename_i h; subst h; rfl
  split
  · rename_i h _ _ _ _ _; exact unesc_plain h x
  split
  · rename_i hlt
    simp only [List.cons_append, List.nil_append, unesc]
    rw [List.take_append_of_le_length (by simp [hexFixed_length]),
      List.drop_append_of_le_length (by simp [hexFixed_length]),
      List.take_of_length_le (by simp [hexFixed_length]), List.drop_of_length_le (by simp [hexFixed_length]),
      unhex_hexFixed _ _ (by simpa using hlt), Char.ofNat_toNat']
    rfl
  split
  · rename_i hlt
    simp only [List.cons_append, List.nil_append, unesc]
    rw [List.take_append_of_le_length (by simp [hexFixed_length]),
      List.drop_append_of_le_length (by simp [hexFixed_length]),
      List.take_of_length_le (by simp [hexFixed_length]), List.drop_of_length_le (by simp [hexFixed_length]),
      unhex_hexFixed _ _ (by simpa using hlt), Char.ofNat_toNat']
    rfl
  · simp only [List.cons_append, List.nil_append, unesc]
    rw [List.take_append_of_le_length (by simp [hexFixed_length]),
      List.drop_append_of_le_length (by simp [hexFixed_length]),
      List.take_of_length_le (by simp [hexFixed_length]), List.drop_of_length_le (by simp [hexFixed_length]),
      unhex_hexFixed _ _ (char_lt c), Char.ofNat_toNat']
    rfl

theorem escChar_head {q : Char} (hq : q = '\'' ∨ q = '"') (c : Char) (x y : List Char) :
    escChar q c ++ x ≠ q :: y := by
  intro h
  have hb : ('\\' : Char) ≠ q := by rcases hq with rfl | rfl <;> decide
  unfold escChar at h
  split at h
  · simp only [List.cons_append, List.cons.injEq] at h; exact hb h.1
  split at h
  · simp only [List.cons_append, List.cons.injEq] at h; exact hb h.1
  split at h
  · simp only [List.cons_append, List.cons.injEq] at h; exact hb h.1
  split at h
  · simp only [List.cons_append, List.cons.injEq] at h; exact hb h.1
  split at h
  · simp only [List.cons_append, List.cons.injEq] at h; exact hb h.1
  split at h
  · rename_i hne _ _ _ _
    simp only [List.cons_append, List.cons.injEq] at h; exact hne h.1
  split at h
  · simp only [List.cons_append, List.cons.injEq] at h; exact hb h.1
  split at h
  · simp only [List.cons_append, List.cons.injEq] at h; exact hb h.1
  · simp only [List.cons_append, List.cons.injEq] at h; exact hb h.1

theorem escs_unique {q : Char} (hq : q = '\'' ∨ q = '"') {s t r r' : List Char}
    (h : s.flatMap (escChar q) ++ q :: r = t.flatMap (escChar q) ++ q :: r') : s = t ∧ r = r' := by
  induction s generalizing t with
  | nil =>
    cases t with
    | nil => simpa using h
    | cons c t =>
      simp only [List.flatMap_nil, List.nil_append, List.flatMap_cons, List.append_assoc] at h
      exact absurd h.symm (escChar_head hq c _ _)
  | cons c s ih =>
    cases t with
    | nil =>
      simp only [List.flatMap_nil, List.nil_append, List.flatMap_cons, List.append_assoc] at h
      exact absurd h (escChar_head hq c _ _)
    | cons d t =>
      simp only [List.flatMap_cons, List.append_assoc] at h
      have := congrArg unesc h
      rw [unesc_escChar hq, unesc_escChar hq] at this
      simp only [Option.some.injEq, Prod.mk.injEq] at this
      obtain ⟨rfl, h'⟩ := this
      obtain ⟨h1, h2⟩ := ih h'
      exact ⟨by rw [h1], h2⟩

theorem quoteFor_cases (s : List Char) : quoteFor s = '\'' ∨ quoteFor s = '"' := by
  unfold quoteFor; split
  · exact .inr rfl
  · exact .inl rfl

theorem reprStr_unique {s t r r' : List Char} (h : reprStr s ++ r = reprStr t ++ r') : s = t ∧ r = r' := by
  simp only [reprStr, List.cons_append, List.cons.injEq, List.append_assoc, List.nil_append] at h
  obtain ⟨hq, h⟩ := h
  rw [← hq] at h
  exact escs_unique (quoteFor_cases s) h

/-! ## Numbers -/

/-- Characters of numerals. -/
def numChar (c : Char) : Bool := c.isDigit || c == '-' || c == '/'

theorem showInt_chars (i : Int) : ∀ c ∈ showInt i, c.isDigit = true ∨ c = '-' := by
  intro c hc
  unfold showInt at hc
  split at hc
  · rcases List.mem_cons.1 hc with h | h
    · exact .inr h
    · exact .inl (showNat_isDigit _ c h)
  · exact .inl (showNat_isDigit _ c hc)

theorem reprNum_chars (q : Rat) : ∀ c ∈ reprNum q, numChar c = true := by
  intro c hc
  simp only [reprNum, List.mem_append] at hc
  rcases hc with h | h
  · rcases showInt_chars _ c h with h | h <;> simp [numChar, h]
  · split at h
    · simp at h
    · rcases List.mem_cons.1 h with h | h
      · simp [numChar, h]
      · simp [numChar, showNat_isDigit _ c h]

theorem reprNum_injective {p q : Rat} (h : reprNum p = reprNum q) : p = q := by
  have hi : ∀ (i : Int), ∀ c ∈ showInt i, (c != '/') = true := by
    intro i c hc
    rcases showInt_chars i c hc with h | h
    · simp only [bne_iff_ne, ne_eq]; intro e; subst e; exact absurd h (by decide)
    · subst h; decide
  have hs : ∀ (r : Rat), StopsAt (fun c => c != '/') (if r.den = 1 then [] else '/' :: showNat r.den) := by
    intro r; split
    · trivial
    · simp [StopsAt]
  obtain ⟨h1, h2⟩ := split_unique (hi p.num) (hi q.num) (hs p) (hs q) h
  have hnum := showInt_injective h1
  have hden : p.den = q.den := by
    split at h2 <;> split at h2
    · omega
    · simp at h2
    · simp at h2
    · simp only [List.cons.injEq, true_and] at h2
      exact showNat_injective h2
  exact Rat.ext hnum hden

/-! ## Variable names and values -/

/-- Characters of variable names. -/
def nameChar (c : Char) : Bool := c.isAlphanum || c == '_' || c == '$'

/-- A legal variable name: letters, digits, `_` and `$`, not starting with a digit, and not the word `None`.
This covers the names in `richard/core/constants.py:29-33`, the generated names `$1`, `$2`, ... of
`richard/processor/semantic_composer/helper/VariableGenerator.py` and the tokens of the rule parser. -/
def legalName (s : String) : Bool :=
  match s.toList with
  | [] => false
  | c :: cs => !c.isDigit && (c :: cs).all nameChar && decide (s ≠ "None")

mutual
/-- All variables in the value have legal names. -/
def legal : Value → Bool
  | .none => true
  | .num _ => true
  | .str _ => true
  | .var n => legalName n
  | .rvar _ => true
  | .list xs => legalList xs
  | .tuple xs => legalList xs
  | .tmpl a b => legalList a && legalList b
/-- All elements are legal. -/
def legalList : List Value → Bool
  | [] => true
  | x :: xs => legal x && legalList xs
end

/-- What can follow a printed value: nothing, a comma, or a closing bracket. -/
def Delim : List Char → Prop
  | [] => True
  | c :: _ => c = ',' ∨ c = ']' ∨ c = ')' ∨ c = '}'

theorem Delim.stops {p : Char → Bool} (hp : p ',' = false ∧ p ']' = false ∧ p ')' = false ∧ p '}' = false) {r : List Char}
    (h : Delim r) : StopsAt p r := by
  cases r with
  | nil => trivial
  | cons c r => rcases h with rfl | rfl | rfl | rfl <;> simp [StopsAt, hp]

/-- Kinds of printed values, by the first character: 0 number, 1 string, 2 list, 3 tuple, 4 word. -/
def kindOf (c : Char) : Nat :=
  if c.isDigit || c == '-' then 0
  else if c == '\'' || c == '"' then 1
  else if c == '[' then 2
  else if c == '(' then 3
  else 4

theorem legalName_spec {n : String} (h : legalName n = true) :
    (∃ c cs, n.toList = c :: cs ∧ c.isDigit = false ∧ nameChar c = true) ∧ (∀ c ∈ n.toList, nameChar c = true) ∧ n ≠ "None" := by
  unfold legalName at h
  cases hn : n.toList with
  | nil => rw [hn] at h; simp at h
  | cons c cs =>
    rw [hn] at h
    simp only [Bool.and_eq_true, Bool.not_eq_true', decide_eq_true_eq, List.all_eq_true] at h
    obtain ⟨⟨h1, h2⟩, h3⟩ := h
    exact ⟨⟨c, cs, rfl, h1, h2 c (by simp)⟩, h2, h3⟩

end Verif

namespace Verif

/-- The kind of a value, matching `kindOf` of its first printed character. -/
def kindV : Value → Nat
  | .num _ => 0
  | .str _ => 1
  | .list _ => 2
  | .tuple _ => 3
  | _ => 4

theorem nameChar_kind {c : Char} (h1 : c.isDigit = false) (h2 : nameChar c = true) :
    kindOf c = 4 ∧ c ≠ ',' ∧ c ≠ ']' ∧ c ≠ ')' := by
  have hne : ∀ d : Char, nameChar d = false → c ≠ d := by
    intro d hd e; subst e; rw [hd] at h2; simp at h2
  refine ⟨?_, hne ',' (by decide), hne ']' (by decide), hne ')' (by decide)⟩
  have e1 := hne '-' (by decide)
  have e2 := hne '\'' (by decide)
  have e3 := hne '"' (by decide)
  have e4 := hne '[' (by decide)
  have e5 := hne '(' (by decide)
  simp [kindOf, h1, e1, e2, e3, e4, e5]

theorem reprV_head (v : Value) (h : legal v = true) :
    ∃ c cs, reprV v = c :: cs ∧ kindOf c = kindV v ∧ c ≠ ',' ∧ c ≠ ']' ∧ c ≠ ')' := by
  cases v with
  | none => exact ⟨'N', ['o', 'n', 'e'], rfl, by decide, by decide, by decide, by decide⟩
  | num q =>
    simp only [reprV, reprNum]
    have hne : showInt q.num ≠ [] := by
      unfold showInt; split
      · simp
      · exact showNat_ne_nil _
    obtain ⟨c, cs, e⟩ := List.exists_cons_of_ne_nil hne
    refine ⟨c, cs ++ _, by rw [e]; rfl, ?_⟩
    rcases showInt_chars q.num c (by rw [e]; simp) with hc | hc
    · refine ⟨by simp [kindOf, kindV, hc], ?_, ?_, ?_⟩ <;> (intro e; subst e; exact absurd hc (by decide))
    · subst hc; exact ⟨rfl, by decide, by decide, by decide⟩
  | str s =>
    simp only [reprV, reprStr]
    refine ⟨quoteFor s.toList, _, rfl, ?_⟩
    rcases quoteFor_cases s.toList with e | e <;> rw [e] <;> exact ⟨by simp [kindV]; decide, by decide, by decide, by decide⟩
  | var n =>
    simp only [legal] at h
    obtain ⟨⟨c, cs, e, h1, h2⟩, -⟩ := legalName_spec h
    exact ⟨c, cs, e, nameChar_kind h1 h2⟩
  | rvar n => exact ⟨'R', _, rfl, rfl, by decide, by decide, by decide⟩
  | list xs => exact ⟨'[', _, rfl, rfl, by decide, by decide, by decide⟩
  | tuple xs =>
    match xs with
    | [] => exact ⟨'(', _, rfl, rfl, by decide, by decide, by decide⟩
    | [x] => exact ⟨'(', _, rfl, rfl, by decide, by decide, by decide⟩
    | x :: y :: ys => exact ⟨'(', _, rfl, rfl, by decide, by decide, by decide⟩
  | tmpl a b => exact ⟨'S', _, rfl, rfl, by decide, by decide, by decide⟩

/-- The leading word of a printed value of kind 4, and the rest. -/
def wordV : Value → List Char × List Char
  | .none => (['N', 'o', 'n', 'e'], [])
  | .var n => (n.toList, [])
  | .rvar n => (wRvar, '(' :: (wName ++ (reprStr n.toList ++ [')'])))
  | .tmpl a b => (wTmpl, '(' :: (wArgs ++ (reprItems a ++ (']' :: (wBody ++ (reprItems b ++ [']', ')']))))))
  | _ => ([], [])

theorem wordV_spec (v : Value) (h : legal v = true) (hk : kindV v = 4) {r : List Char} (hr : Delim r) :
    reprV v = (wordV v).1 ++ (wordV v).2 ∧ (∀ c ∈ (wordV v).1, nameChar c = true) ∧ StopsAt nameChar ((wordV v).2 ++ r) := by
  have hs := hr.stops (p := nameChar) (by decide)
  cases v <;> simp only [kindV] at hk <;> try omega
  · exact ⟨rfl, by decide, hs⟩
  · rename_i n
    simp only [legal] at h
    exact ⟨by simp [reprV, wordV], (legalName_spec h).2.1, hs⟩
  · exact ⟨rfl, by simp only [wordV]; decide, by simp only [wordV, List.cons_append, StopsAt]; decide⟩
  · exact ⟨rfl, by simp only [wordV]; decide, by simp only [wordV, List.cons_append, StopsAt]; decide⟩

theorem delim_comma (r : List Char) : Delim (',' :: r) := Or.inl rfl

theorem reprV_unique_step (N : Nat)
    (ihV : ∀ (v v' : Value) (r r' : List Char), sizeOf v < N → legal v = true → legal v' = true → Delim r → Delim r' →
      reprV v ++ r = reprV v' ++ r' → v = v' ∧ r = r')
    (ihI : ∀ (xs ys : List Value) (close : Char), close = ']' ∨ close = ')' → ∀ (r r' : List Char), sizeOf xs < N →
      legalList xs = true → legalList ys = true → reprItems xs ++ close :: r = reprItems ys ++ close :: r' → xs = ys ∧ r = r')
    (v v' : Value) (r r' : List Char) (hN : sizeOf v < N + 1) (hv : legal v = true) (hv' : legal v' = true)
    (hr : Delim r) (hr' : Delim r') (h : reprV v ++ r = reprV v' ++ r') : v = v' ∧ r = r' := by
  obtain ⟨c, cs, e, hk, -⟩ := reprV_head v hv
  obtain ⟨c', cs', e', hk', -⟩ := reprV_head v' hv'
  have hkind : kindV v = kindV v' := by
    have : c = c' := by
      have h2 := h
      rw [e, e'] at h2
      simp only [List.cons_append, List.cons.injEq] at h2
      exact h2.1
    rw [← hk, ← hk', this]
  by_cases h4 : kindV v = 4
  · have h4' : kindV v' = 4 := by omega
    obtain ⟨s1, s2, s3⟩ := wordV_spec v hv h4 hr
    obtain ⟨t1, t2, t3⟩ := wordV_spec v' hv' h4' hr'
    rw [s1, t1, List.append_assoc, List.append_assoc] at h
    obtain ⟨hw, hrest⟩ := split_unique s2 t2 s3 t3 h
    have hdel : ∀ {c : Char} {x y : List Char}, Delim y → y = c :: x → c = '(' → False := by
      intro c x y hy e1 e2
      subst e1 e2
      rcases hy with h | h | h <;> exact absurd h (by decide)
    match v, h4 with
    | .none, _ =>
      match v', h4' with
      | .none, _ => exact ⟨rfl, by simpa [wordV] using hrest⟩
      | .var n, _ =>
        simp only [legal] at hv'
        exfalso
        apply (legalName_spec hv').2.2
        apply String.ext
        exact hw.symm
      | .rvar n, _ => exact absurd hw (by simp only [wordV]; decide)
      | .tmpl a b, _ => exact absurd hw (by simp only [wordV]; decide)
    | .var n, _ =>
      match v', h4' with
      | .none, _ =>
        simp only [legal] at hv
        exfalso
        apply (legalName_spec hv).2.2
        apply String.ext
        exact hw
      | .var n', _ =>
        have : n = n' := String.ext hw
        exact ⟨by rw [this], by simpa [wordV] using hrest⟩
      | .rvar n', _ => exact (hdel hr hrest rfl).elim
      | .tmpl a b, _ => exact (hdel hr hrest rfl).elim
    | .rvar n, _ =>
      match v', h4' with
      | .none, _ => exact absurd hw (by simp only [wordV]; decide)
      | .var n', _ => exact (hdel hr' hrest.symm rfl).elim
      | .rvar n', _ =>
        simp only [wordV, List.append_assoc, List.cons_append, List.cons.injEq, true_and, List.append_cancel_left_eq] at hrest
        obtain ⟨e1, e2⟩ := reprStr_unique hrest
        simp only [List.nil_append, List.cons.injEq, true_and] at e2
        exact ⟨by rw [String.ext e1], e2⟩
      | .tmpl a b, _ => exact absurd hw (by simp only [wordV]; decide)
    | .tmpl a b, _ =>
      match v', h4' with
      | .none, _ => exact absurd hw (by simp only [wordV]; decide)
      | .var n', _ => exact (hdel hr' hrest.symm rfl).elim
      | .rvar n', _ => exact absurd hw (by simp only [wordV]; decide)
      | .tmpl a' b', _ =>
        simp only [legal, Bool.and_eq_true] at hv hv'
        simp only [wordV, List.append_assoc, List.cons_append, List.cons.injEq, true_and, List.append_cancel_left_eq] at hrest
        obtain ⟨e1, e2⟩ := ihI a a' ']' (.inl rfl) _ _ (by simp at hN ⊢; omega) hv.1 hv'.1 hrest
        have e3 : reprItems b ++ ']' :: (')' :: r) = reprItems b' ++ ']' :: (')' :: r') := by
          simpa only [List.append_assoc, List.cons_append, List.nil_append] using List.append_cancel_left (as := wBody) e2
        obtain ⟨e4, e5⟩ := ihI b b' ']' (.inl rfl) _ _ (by simp at hN ⊢; omega) hv.2 hv'.2 e3
        simp only [List.cons.injEq, true_and] at e5
        exact ⟨by rw [e1, e4], e5⟩
  · match v, v', hkind with
    | .num p, .num q, _ =>
      simp only [reprV] at h
      obtain ⟨h1, h2⟩ := split_unique (reprNum_chars p) (reprNum_chars q) (hr.stops (by decide)) (hr'.stops (by decide)) h
      exact ⟨by rw [reprNum_injective h1], h2⟩
    | .str s, .str t, _ =>
      simp only [reprV] at h
      obtain ⟨h1, h2⟩ := reprStr_unique h
      exact ⟨by rw [String.ext h1], h2⟩
    | .list xs, .list ys, _ =>
      simp only [legal] at hv hv'
      simp only [reprV, List.cons_append, List.cons.injEq, true_and, List.append_assoc, List.nil_append] at h
      obtain ⟨h1, h2⟩ := ihI xs ys ']' (.inl rfl) r r' (by simp at hN ⊢; omega) hv hv' h
      exact ⟨by rw [h1], h2⟩
    | .tuple [], .tuple ys, _ =>
      match ys with
      | [] =>
        simp only [reprV, List.cons_append, List.cons.injEq, true_and, List.nil_append, reprItems] at h
        exact ⟨rfl, h⟩
      | [y] =>
        simp only [legal, legalList, Bool.and_true] at hv'
        obtain ⟨c, cs, e, -, -, -, hc⟩ := reprV_head y hv'
        simp only [reprV, List.cons_append, List.cons.injEq, true_and, List.append_assoc, List.nil_append, reprItems, e] at h
        exact absurd h.1.symm hc
      | y :: y2 :: ys =>
        simp only [legal, legalList, Bool.and_eq_true] at hv'
        obtain ⟨c, cs, e, -, -, -, hc⟩ := reprV_head y hv'.1
        simp only [reprV, List.cons_append, List.cons.injEq, true_and, List.append_assoc, List.nil_append, reprItems, e] at h
        exact absurd h.1.symm hc
    | .tuple [x], .tuple ys, _ =>
      simp only [legal, legalList, Bool.and_true] at hv
      match ys with
      | [] =>
        obtain ⟨c, cs, e, -, -, -, hc⟩ := reprV_head x hv
        simp only [reprV, List.cons_append, List.cons.injEq, true_and, List.append_assoc, List.nil_append, reprItems, e] at h
        exact absurd h.1 hc
      | [y] =>
        simp only [legal, legalList, Bool.and_true] at hv'
        simp only [reprV, List.cons_append, List.cons.injEq, true_and, List.append_assoc, List.nil_append] at h
        obtain ⟨h1, h2⟩ := ihV x y _ _ (by simp at hN ⊢; omega) hv hv' (delim_comma _) (delim_comma _) h
        simp only [List.cons.injEq, true_and] at h2
        exact ⟨by rw [h1], h2⟩
      | y :: y2 :: ys =>
        simp only [legal, legalList, Bool.and_eq_true] at hv'
        simp only [reprV, reprItems, List.cons_append, List.cons.injEq, true_and, List.append_assoc, List.nil_append] at h
        obtain ⟨h1, h2⟩ := ihV x y _ _ (by simp at hN ⊢; omega) hv hv'.1 (delim_comma _) (delim_comma _) h
        simp at h2
    | .tuple (x :: x2 :: xs), .tuple ys, _ =>
      match ys with
      | [] =>
        simp only [legal, legalList, Bool.and_eq_true] at hv
        obtain ⟨c, cs, e, -, -, -, hc⟩ := reprV_head x hv.1
        simp only [reprV, List.cons_append, List.cons.injEq, true_and, List.append_assoc, List.nil_append, reprItems, e] at h
        exact absurd h.1 hc
      | [y] =>
        simp only [legal, legalList, Bool.and_eq_true] at hv
        simp only [legal, legalList, Bool.and_true] at hv'
        simp only [reprV, reprItems, List.cons_append, List.cons.injEq, true_and, List.append_assoc, List.nil_append] at h
        obtain ⟨h1, h2⟩ := ihV x y _ _ (by simp at hN ⊢; omega) hv.1 hv' (delim_comma _) (delim_comma _) h
        simp at h2
      | y :: y2 :: ys =>
        simp only [legal] at hv hv'
        have h' : reprItems (x :: x2 :: xs) ++ ')' :: r = reprItems (y :: y2 :: ys) ++ ')' :: r' := by
          simpa only [reprV, List.cons_append, List.cons.injEq, true_and, List.append_assoc, List.nil_append] using h
        obtain ⟨h1, h2⟩ := ihI (x :: x2 :: xs) (y :: y2 :: ys) ')' (.inr rfl) r r' (by simp at hN ⊢; omega) hv hv' h'
        exact ⟨by rw [h1], h2⟩
    | .none, _, _ => exact absurd rfl h4
    | .var _, _, _ => exact absurd rfl h4
    | .rvar _, _, _ => exact absurd rfl h4
    | .tmpl _ _, _, _ => exact absurd rfl h4

theorem reprItems_unique_step (N : Nat)
    (ihV : ∀ (v v' : Value) (r r' : List Char), sizeOf v < N → legal v = true → legal v' = true → Delim r → Delim r' →
      reprV v ++ r = reprV v' ++ r' → v = v' ∧ r = r')
    (ihI : ∀ (xs ys : List Value) (close : Char), close = ']' ∨ close = ')' → ∀ (r r' : List Char), sizeOf xs < N →
      legalList xs = true → legalList ys = true → reprItems xs ++ close :: r = reprItems ys ++ close :: r' → xs = ys ∧ r = r')
    (xs ys : List Value) (close : Char) (hc : close = ']' ∨ close = ')') (r r' : List Char)
    (hN : sizeOf xs < N + 1) (hx : legalList xs = true) (hy : legalList ys = true) (h : reprItems xs ++ close :: r = reprItems ys ++ close :: r') :
    xs = ys ∧ r = r' := by
  have hd : ∀ s, Delim (close :: s) := fun s => by rcases hc with rfl | rfl <;> simp [Delim]
  have hne : close ≠ ',' := by rcases hc with rfl | rfl <;> decide
  have hhead : ∀ (v : Value) (s t : List Char), legal v = true → reprV v ++ s ≠ close :: t := by
    intro v s t hv e
    obtain ⟨c, cs, e', -, -, h1, h2⟩ := reprV_head v hv
    rw [e'] at e
    simp only [List.cons_append, List.cons.injEq] at e
    rcases hc with rfl | rfl
    · exact h1 e.1
    · exact h2 e.1
  match xs, ys with
  | [], [] => simpa [reprItems] using h
  | [], y :: ys =>
    simp only [legalList, Bool.and_eq_true] at hy
    cases ys with
    | nil => simp only [reprItems, List.nil_append] at h; exact absurd h.symm (hhead y _ _ hy.1)
    | cons y2 ys =>
      simp only [reprItems, List.nil_append, List.append_assoc] at h
      exact absurd h.symm (hhead y _ _ hy.1)
  | x :: xs, [] =>
    simp only [legalList, Bool.and_eq_true] at hx
    cases xs with
    | nil => simp only [reprItems, List.nil_append] at h; exact absurd h (hhead x _ _ hx.1)
    | cons x2 xs =>
      simp only [reprItems, List.nil_append, List.append_assoc] at h
      exact absurd h (hhead x _ _ hx.1)
  | x :: xs, y :: ys =>
    simp only [legalList, Bool.and_eq_true] at hx hy
    match xs, ys with
    | [], [] =>
      simp only [reprItems] at h
      obtain ⟨h1, h2⟩ := ihV x y _ _ (by simp at hN ⊢; omega) hx.1 hy.1 (hd _) (hd _) h
      simp only [List.cons.injEq, true_and] at h2
      exact ⟨by rw [h1], h2⟩
    | [], y2 :: ys =>
      simp only [reprItems, List.append_assoc, List.cons_append] at h
      obtain ⟨h1, h2⟩ := ihV x y _ _ (by simp at hN ⊢; omega) hx.1 hy.1 (hd _) (delim_comma _) h
      simp only [List.cons.injEq] at h2
      exact absurd h2.1 hne
    | x2 :: xs, [] =>
      simp only [reprItems, List.append_assoc, List.cons_append] at h
      obtain ⟨h1, h2⟩ := ihV x y _ _ (by simp at hN ⊢; omega) hx.1 hy.1 (delim_comma _) (hd _) h
      simp only [List.cons.injEq] at h2
      exact absurd h2.1.symm hne
    | x2 :: xs, y2 :: ys =>
      simp only [reprItems, List.append_assoc, List.cons_append] at h
      obtain ⟨h1, h2⟩ := ihV x y _ _ (by simp at hN ⊢; omega) hx.1 hy.1 (delim_comma _) (delim_comma _) h
      simp only [List.cons.injEq, true_and] at h2
      obtain ⟨h3, h4⟩ := ihI (x2 :: xs) (y2 :: ys) close hc r r' (by simp at hN ⊢; omega) hx.2 hy.2 h2
      exact ⟨by rw [h1, h3], h4⟩

theorem repr_unique_aux (N : Nat) :
    (∀ (v v' : Value) (r r' : List Char), sizeOf v < N → legal v = true → legal v' = true → Delim r → Delim r' →
      reprV v ++ r = reprV v' ++ r' → v = v' ∧ r = r') ∧
    (∀ (xs ys : List Value) (close : Char), close = ']' ∨ close = ')' → ∀ (r r' : List Char), sizeOf xs < N →
      legalList xs = true → legalList ys = true → reprItems xs ++ close :: r = reprItems ys ++ close :: r' →
      xs = ys ∧ r = r') := by
  induction N with
  | zero => exact ⟨fun _ _ _ _ h => absurd h (Nat.not_lt_zero _), fun _ _ _ _ _ _ h => absurd h (Nat.not_lt_zero _)⟩
  | succ N ih =>
    exact ⟨fun v v' r r' hN => reprV_unique_step N ih.1 ih.2 v v' r r' hN,
      fun xs ys c hc r r' hN => reprItems_unique_step N ih.1 ih.2 xs ys c hc r r' hN⟩

theorem strRow_injective {a b : List Value} (ha : legalList a = true) (hb : legalList b = true)
    (h : strRow a = strRow b) : a = b := by
  simp only [strRow, List.cons.injEq, true_and] at h
  exact ((repr_unique_aux _).2 a b ']' (.inl rfl) [] [] (Nat.lt_succ_self _) ha hb h).1

end Verif
