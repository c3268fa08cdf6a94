import Verif.Logging

/-!
# C102: parse trees on one line

The specification is a tree of what is visible (`Visible`) and its text. `inline_str` is what the tests of the project compare parse trees with.
-/

namespace Verif

variable {A : Type}

/-! ## Specification -/

/-- What is visible of a parse tree on one line (specification): leaves with a category and a word, and nodes with a category and parts. `gap` tells
that a space comes before the first part. -/
inductive Visible where
  | leaf (category word : Str)
  | node (category : Str) (gap : Bool) (parts : List Visible)

/-- The word of a node, empty if the node has none. -/
def ParseTree.word : ParseTree A → Str
  | .node _ _ f _ => f

mutual
/-- The text of what is visible (specification): parts in brackets, separated by single spaces. -/
def Visible.text : Visible → Str
  | .leaf c f => c ++ [' ', '\''] ++ f ++ ['\'']
  | .node c gap parts => c ++ ['('] ++ (if gap then [' '] else []) ++ partsText parts ++ [')']
@[inherit_doc Visible.text] def partsText : List Visible → Str
  | [] => []
  | [v] => v.text
  | v :: v' :: vs => v.text ++ [' '] ++ partsText (v' :: vs)
end

mutual
/-- What is visible of a node that is not a word (specification): words that are a single space are left out; if the first child is one of these, and
something is visible after it, there is a gap. -/
def visibleNode : ParseTree A → Visible
  | .node c cs _ _ => .node c (cs.head?.any (fun t => t.word == [' ']) && cs.any (fun t => t.word != [' '])) (visibleParts cs)
@[inherit_doc visibleNode] def visibleParts : List (ParseTree A) → List Visible
  | [] => []
  | .node c cs f r :: ts => if f = [' '] then visibleParts ts else (if f = [] then visibleNode (.node c cs f r) else .leaf c f) :: visibleParts ts
end

/-- A name without spaces, quotes and brackets (specification). -/
def PlainName (s : Str) : Prop := s ≠ [] ∧ ' ' ∉ s ∧ '\'' ∉ s ∧ '(' ∉ s ∧ ')' ∉ s

mutual
/-- Categories are plain names, and words have no quotes (specification). -/
def Visible.Plain : Visible → Prop
  | .leaf c f => PlainName c ∧ '\'' ∉ f
  | .node c _ parts => PlainName c ∧ plainParts parts
@[inherit_doc Visible.Plain] def plainParts : List Visible → Prop
  | [] => True
  | v :: vs => v.Plain ∧ plainParts vs
end

/-! ## The text -/

theorem visibleParts_eq_nil : ∀ (ts : List (ParseTree A)), visibleParts ts = [] ↔ ∀ t ∈ ts, t.word = [' ']
  | [] => by simp [visibleParts]
  | .node c cs f r :: ts => by
    have ih := visibleParts_eq_nil ts
    by_cases hf : f = [' '] <;> simp [visibleParts, ParseTree.word, hf, ih]

mutual
theorem inlineText_eq : ∀ (t : ParseTree A), inlineText t = (visibleNode t).text
  | .node c cs f r => by
    have h := inlineChildren_first cs
    simp only [inlineText, visibleNode, Visible.text, h]
    simp
theorem inlineChildren_rest : ∀ (ts : List (ParseTree A)), inlineChildren ts [' '] = (if visibleParts ts = [] then [] else ' ' :: partsText (visibleParts ts))
  | [] => by simp [inlineChildren, visibleParts]
  | .node c cs f r :: ts => by
    have ih := inlineChildren_rest ts
    have ht := inlineText_eq (.node c cs f r)
    simp only [inlineChildren, visibleParts]
    by_cases hf : f = [' ']
    · simp [hf, ih]
    · by_cases hn : f = []
      · subst hn
        simp only [hf, ne_eq, not_true_eq_false, if_false, if_true, ht, ih]
        cases visibleParts ts <;> simp [partsText]
      · simp only [hf, ne_eq, hn, not_false_eq_true, if_false, if_true, ih]
        cases visibleParts ts <;> simp [partsText, Visible.text]
theorem inlineChildren_first : ∀ (ts : List (ParseTree A)), inlineChildren ts [] =
    (if (ts.head?.any (fun t => t.word == [' ']) && ts.any (fun t => t.word != [' '])) then [' '] else []) ++ partsText (visibleParts ts)
  | [] => by simp [inlineChildren, visibleParts, partsText]
  | .node c cs f r :: ts => by
    have ih := inlineChildren_rest ts
    have ht := inlineText_eq (.node c cs f r)
    have hn := visibleParts_eq_nil ts
    simp only [inlineChildren, visibleParts]
    by_cases hf : f = [' ']
    · by_cases hv : visibleParts ts = []
      · have : ts.any (fun t => t.word != [' ']) = false := by simpa using hn.1 hv
        rw [List.any_cons, this]
        simp [hf, ih, hv, ParseTree.word, partsText]
      · have : ts.any (fun t => t.word != [' ']) = true := by simpa using fun h => hv (hn.2 h)
        rw [List.any_cons, this]
        simp [hf, ih, hv, ParseTree.word]
    · by_cases hn : f = []
      · subst hn
        simp only [hf, ne_eq, not_true_eq_false, if_false, if_true, ht, ih]
        cases visibleParts ts <;> simp [partsText, ParseTree.word]
      · simp only [hf, ne_eq, hn, not_false_eq_true, if_false, if_true, ih]
        cases visibleParts ts <;> simp [partsText, Visible.text, ParseTree.word, hf]
end

/-- **C102** The line of a parse tree is the text of what is visible of it. -/
theorem C102_text (t : ParseTree A) : inlineText t = (visibleNode t).text := inlineText_eq t

/-! ## The text determines what is visible -/

theorem name_unique {d d' : Char} : ∀ {a b r s : Str}, d ∉ a → d' ∉ b → d' ∉ a → d ∉ b → a ++ d :: r = b ++ d' :: s → a = b ∧ d = d' ∧ r = s
  | [], [], _, _, _, _, _, _, h => by simpa using h
  | [], c :: b, _, _, _, _, _, hb, h => by
    simp only [List.nil_append, List.cons_append, List.cons.injEq] at h
    exact absurd (h.1 ▸ List.mem_cons_self) hb
  | c :: a, [], _, _, _, _, ha, _, h => by
    simp only [List.nil_append, List.cons_append, List.cons.injEq] at h
    exact absurd (h.1 ▸ List.mem_cons_self) ha
  | c :: a, e :: b, _, _, h1, h2, h3, h4, h => by
    simp only [List.cons_append, List.cons.injEq] at h
    simp only [List.mem_cons, not_or] at h1 h2 h3 h4
    obtain ⟨e1, e2, e3⟩ := name_unique h1.2 h2.2 h3.2 h4.2 h.2
    exact ⟨by rw [h.1, e1], e2, e3⟩

/-- The text starts with a character of the category. -/
theorem text_start {v : Visible} (h : v.Plain) : ∃ c r, v.text = c :: r ∧ c ≠ ' ' ∧ c ≠ ')' := by
  have aux : ∀ {n : Str} (rest : Str), PlainName n → ∃ c r, n ++ rest = c :: r ∧ c ≠ ' ' ∧ c ≠ ')' := by
    intro n rest hn
    obtain ⟨h0, h1, -, -, h2⟩ := hn
    cases n with
    | nil => exact absurd rfl h0
    | cons c n =>
      simp only [List.mem_cons, not_or] at h1 h2
      exact ⟨c, n ++ rest, rfl, Ne.symm h1.1, Ne.symm h2.1⟩
  cases v with
  | leaf c f => simpa [Visible.text] using aux ([' ', '\''] ++ f ++ ['\'']) h.1
  | node c g ps => simpa [Visible.text] using aux (['('] ++ (if g then [' '] else []) ++ partsText ps ++ [')']) h.1

mutual
theorem text_unique : ∀ (v u : Visible) (x y : Str), v.Plain → u.Plain → v.text ++ x = u.text ++ y → v = u ∧ x = y
  | .leaf c f, .leaf c' f', x, y, hv, hu, h => by
    simp only [Visible.text, List.append_assoc, List.cons_append, List.nil_append] at h
    obtain ⟨rfl, -, h⟩ := name_unique hv.1.2.1 hu.1.2.1 hv.1.2.1 hu.1.2.1 h
    simp only [List.cons.injEq, true_and] at h
    obtain ⟨rfl, -, h⟩ := name_unique hv.2 hu.2 hv.2 hu.2 h
    exact ⟨rfl, h⟩
  | .leaf c f, .node c' g ps, x, y, hv, hu, h => by
    simp only [Visible.text, List.append_assoc, List.cons_append, List.nil_append] at h
    obtain ⟨-, h, -⟩ := name_unique hv.1.2.1 hu.1.2.2.2.1 hv.1.2.2.2.1 hu.1.2.1 h
    exact absurd h (by decide)
  | .node c g ps, .leaf c' f', x, y, hv, hu, h => by
    simp only [Visible.text, List.append_assoc, List.cons_append, List.nil_append] at h
    obtain ⟨-, h, -⟩ := name_unique hv.1.2.2.2.1 hu.1.2.1 hv.1.2.1 hu.1.2.2.2.1 h
    exact absurd h (by decide)
  | .node c g ps, .node c' g' ps', x, y, hv, hu, h => by
    simp only [Visible.text, List.append_assoc, List.cons_append, List.nil_append] at h
    obtain ⟨rfl, -, h⟩ := name_unique hv.1.2.2.2.1 hu.1.2.2.2.1 hv.1.2.2.2.1 hu.1.2.2.2.1 h
    have start : ∀ (ps : List Visible) (z : Str), plainParts ps → ∃ c r, partsText ps ++ ')' :: z = c :: r ∧ c ≠ ' ' := by
      intro ps z hp
      match ps, hp with
      | [], _ => exact ⟨')', z, rfl, by decide⟩
      | [v], hp =>
        obtain ⟨c, r, h1, h2, -⟩ := text_start hp.1
        exact ⟨c, r ++ ')' :: z, by simp [partsText, h1], h2⟩
      | v :: v' :: vs, hp =>
        obtain ⟨c, r, h1, h2, -⟩ := text_start hp.1
        exact ⟨c, r ++ ' ' :: (partsText (v' :: vs) ++ ')' :: z), by simp [partsText, h1], h2⟩
    have hg : g = g' ∧ partsText ps ++ ')' :: x = partsText ps' ++ ')' :: y := by
      obtain ⟨a, r, e, ha⟩ := start ps x hv.2
      obtain ⟨a', r', e', ha'⟩ := start ps' y hu.2
      cases g <;> cases g' <;> simp only [Bool.false_eq_true, if_false, if_true, List.nil_append, List.cons_append, List.cons.injEq, true_and] at h
      · exact ⟨rfl, h⟩
      · rw [e] at h; simp only [List.cons.injEq] at h; exact absurd h.1 ha
      · rw [e'] at h; simp only [List.cons.injEq] at h; exact absurd h.1.symm ha'
      · exact ⟨rfl, h⟩
    obtain ⟨rfl, hp⟩ := hg
    obtain ⟨rfl, hx⟩ := parts_unique ps ps' x y hv.2 hu.2 hp
    exact ⟨rfl, hx⟩
theorem parts_unique : ∀ (vs us : List Visible) (x y : Str), plainParts vs → plainParts us → partsText vs ++ ')' :: x = partsText us ++ ')' :: y →
    vs = us ∧ x = y
  | [], [], x, y, _, _, h => by simpa [partsText] using h
  | [], [u], x, y, _, hu, h => by
    obtain ⟨c, r, h1, -, h2⟩ := text_start hu.1
    simp only [partsText, h1, List.nil_append, List.cons_append, List.cons.injEq] at h
    exact absurd h.1.symm h2
  | [], u :: u' :: us, x, y, _, hu, h => by
    obtain ⟨c, r, h1, -, h2⟩ := text_start hu.1
    simp only [partsText, h1, List.nil_append, List.cons_append, List.cons.injEq] at h
    exact absurd h.1.symm h2
  | [v], [], x, y, hv, _, h => by
    obtain ⟨c, r, h1, -, h2⟩ := text_start hv.1
    simp only [partsText, h1, List.nil_append, List.cons_append, List.cons.injEq] at h
    exact absurd h.1 h2
  | v :: v' :: vs, [], x, y, hv, _, h => by
    obtain ⟨c, r, h1, -, h2⟩ := text_start hv.1
    simp only [partsText, h1, List.nil_append, List.cons_append, List.cons.injEq] at h
    exact absurd h.1 h2
  | [v], [u], x, y, hv, hu, h => by
    simp only [partsText] at h
    obtain ⟨rfl, h⟩ := text_unique v u _ _ hv.1 hu.1 h
    exact ⟨rfl, by simpa using h⟩
  | [v], u :: u' :: us, x, y, hv, hu, h => by
    simp only [partsText, List.append_assoc, List.cons_append, List.nil_append] at h
    obtain ⟨rfl, h⟩ := text_unique v u _ _ hv.1 hu.1 h
    simp at h
  | v :: v' :: vs, [u], x, y, hv, hu, h => by
    simp only [partsText, List.append_assoc, List.cons_append, List.nil_append] at h
    obtain ⟨rfl, h⟩ := text_unique v u _ _ hv.1 hu.1 h
    simp at h
  | v :: v' :: vs, u :: u' :: us, x, y, hv, hu, h => by
    simp only [partsText, List.append_assoc, List.cons_append, List.nil_append] at h
    obtain ⟨rfl, hr⟩ := text_unique v u _ _ hv.1 hu.1 h
    obtain ⟨h1, h2⟩ := parts_unique (v' :: vs) (u' :: us) x y hv.2 hu.2 (List.cons.inj hr).2
    exact ⟨by rw [h1], h2⟩
end

/-- **C102** Two parse trees have the same line exactly if the same is visible of them, provided that categories have no spaces, quotes and brackets, and
words no quotes. -/
theorem C102_determines {t u : ParseTree A} (ht : (visibleNode t).Plain) (hu : (visibleNode u).Plain) :
    inlineText t = inlineText u ↔ visibleNode t = visibleNode u := by
  rw [inlineText_eq, inlineText_eq]
  exact ⟨fun h => (text_unique _ _ [] [] ht hu (by rw [h])).1, fun h => by rw [h]⟩

/-! ## Limits and example -/

namespace InlineEx

/-- A node of a parse tree. -/
def tree (c : String) (cs : List (ParseTree Unit)) (f : String) : ParseTree Unit :=
  .node c.toList cs f.toList ⟨⟨c.toList, [], .relation, false, false⟩, [], .none, 0, 0⟩

/-- `John sleeps`, with the space between the words. -/
def john : ParseTree Unit := tree "s" [tree "np" [tree "name" [] "John"] "", tree "space" [] " ", tree "verb" [] "sleeps"] ""

end InlineEx

/-- Limit of C102: with quotes in a word the line is ambiguous: one word or two. -/
theorem C102_quotes : inlineText (InlineEx.tree "s" [InlineEx.tree "a" [] "x' b 'y"] "") =
      inlineText (InlineEx.tree "s" [InlineEx.tree "a" [] "x", InlineEx.tree "b" [] "y"] "") ∧
    visibleNode (InlineEx.tree "s" [InlineEx.tree "a" [] "x' b 'y"] "") ≠
      visibleNode (InlineEx.tree "s" [InlineEx.tree "a" [] "x", InlineEx.tree "b" [] "y"] "") :=
  ⟨by decide +kernel, fun h => by
    simp only [InlineEx.tree, visibleNode, visibleParts] at h
    simp at h⟩

/-- Limit of C102: a word that is a single space is not visible, but it makes a gap if it comes first. -/
theorem C102_gap : inlineText (InlineEx.tree "s" [InlineEx.tree "space" [] " ", InlineEx.tree "a" [] "x"] "") = "s( a 'x')".toList ∧
    inlineText (InlineEx.tree "s" [InlineEx.tree "a" [] "x", InlineEx.tree "space" [] " "] "") = "s(a 'x')".toList :=
  ⟨by decide +kernel, by decide +kernel⟩

example : inlineText InlineEx.john = "s(np(name 'John') verb 'sleeps')".toList := by decide +kernel

theorem InlineEx.john_plain : (visibleNode InlineEx.john).Plain := by
  simp [InlineEx.john, InlineEx.tree, visibleNode, visibleParts, Visible.Plain, plainParts, PlainName]

/-- `C102_determines` applies: the tree with another category for the name has another line. -/
example : inlineText InlineEx.john ≠ inlineText (InlineEx.tree "s" [InlineEx.tree "np" [InlineEx.tree "noun" [] "John"] "", InlineEx.tree "verb" [] "sleeps"] "") := by
  rw [Ne, C102_determines InlineEx.john_plain (by
    simp [InlineEx.tree, visibleNode, visibleParts, Visible.Plain, plainParts, PlainName])]
  simp [InlineEx.john, InlineEx.tree, visibleNode, visibleParts]

end Verif
