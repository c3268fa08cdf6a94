import Verif.Logging

/-!
# C81: printed parse trees

The specification is a tree of labels (`Shape`), and its lines: one for each node, parents before children, with a mark for each ancestor.
-/

namespace Verif

variable {A : Type}

/-- A tree of labels (specification). -/
inductive Shape where
  | node (label : Str) (kids : List Shape)

mutual
/-- What a node below the root shows of a parse tree (specification): a node with a word shows its category and its word; another node its category and
its children. -/
def shownNode : ParseTree A → Shape
  | .node c cs f _ => if f = [] then .node c (shownNodes cs) else .node (c ++ [' ', '\''] ++ f ++ ['\'']) []
@[inherit_doc shownNode] def shownNodes : List (ParseTree A) → List Shape
  | [] => []
  | t :: ts => shownNode t :: shownNodes ts
end

/-- What is shown of a parse tree (specification): of the root always the category and the children. -/
def shownTree : ParseTree A → Shape
  | .node c cs _ _ => .node c (shownNodes cs)

mutual
/-- The lines for a node below the root (specification): for each ancestor below the root whether it has a next sibling, and the label. `more` tells
whether the node itself has one. -/
def nodeLines (above : List Bool) (more : Bool) : Shape → List (List Bool × Str)
  | .node label kids => (above, label) :: kidLines (above ++ [more]) kids
@[inherit_doc nodeLines] def kidLines (above : List Bool) : List Shape → List (List Bool × Str)
  | [] => []
  | s :: ss => nodeLines above (!ss.isEmpty) s ++ kidLines above ss
end

/-- The text of a line (specification). -/
def lineText (line : List Bool × Str) : Str :=
  line.1.flatMap (fun more => if more then ['|', ' ', ' '] else [' ', ' ', ' ']) ++ ['+', '-', ' '] ++ line.2 ++ ['\n']

theorem shownNodes_isEmpty (ts : List (ParseTree A)) : (shownNodes ts).isEmpty = ts.isEmpty := by cases ts <;> rfl

/-- The marks of the ancestors. -/
def marks (above : List Bool) : Str := above.flatMap (fun more => if more then ['|', ' ', ' '] else [' ', ' ', ' '])

theorem marks_snoc (above : List Bool) (more : Bool) :
    marks (above ++ [more]) = marks above ++ (if more then ['|', ' ', ' '] else [' ', ' ', ' ']) := by simp [marks]

theorem marks_snoc_ne (above : List Bool) (more : Bool) : marks (above ++ [more]) ≠ [] := by
  rw [marks_snoc]; cases more <;> simp

theorem childrenText_eq : ∀ (ts : List (ParseTree A)) (above : List Bool),
    childrenText ts (marks above) = (kidLines above (shownNodes ts)).flatMap lineText
  | [], above => rfl
  | .node c cs f r :: ts, above => by
    have ih := childrenText_eq ts above
    have ih' := childrenText_eq cs (above ++ [!ts.isEmpty])
    simp only [childrenText, shownNodes, kidLines, List.flatMap_append, ih, shownNodes_isEmpty]
    congr 1
    by_cases hf : f = []
    · have hm : marks above ++ (if ts = [] then [' ', ' ', ' '] else ['|', ' ', ' ']) = marks (above ++ [!ts.isEmpty]) := by
        rw [marks_snoc]; cases ts <;> simp
      simp only [hf, ne_eq, not_true_eq_false, if_false, shownNode, if_true, nodeLines, List.flatMap_cons, hm, treeText, if_neg (marks_snoc_ne _ _), ih']
      simp [lineText, marks]
    · simp only [ne_eq, hf, not_false_eq_true, if_true, shownNode, if_false, nodeLines, kidLines, List.flatMap_cons, List.flatMap_nil]
      simp [lineText, marks]

/-- **C81**: a parse tree is printed with one line per node that is shown, parents before their children and children from left to right; the first line
is the category of the root; each other line has three characters for each ancestor below the root, a bar if the ancestor has a next sibling. -/
theorem C81_lines (t : ParseTree A) : treeText t [] = (match shownTree t with
    | .node label kids => label ++ ['\n'] ++ (kidLines [] kids).flatMap lineText) := by
  cases t with
  | node c cs f r =>
    have := childrenText_eq cs []
    simp only [marks, List.flatMap_nil] at this
    simp [treeText, shownTree, this]

/-! ## The text determines the tree -/

mutual
/-- No label has a line break (specification). -/
def Shape.oneLine : Shape → Prop
  | .node label kids => '\n' ∉ label ∧ oneLines kids
@[inherit_doc Shape.oneLine] def oneLines : List Shape → Prop
  | [] => True
  | s :: ss => s.oneLine ∧ oneLines ss
end

theorem line_unique : ∀ {a b r s : Str}, '\n' ∉ a → '\n' ∉ b → a ++ '\n' :: r = b ++ '\n' :: s → a = b ∧ r = s
  | [], [], _, _, _, _, h => ⟨rfl, by simpa using h⟩
  | [], c :: b, _, _, _, hb, h => by
    simp only [List.nil_append, List.cons_append, List.cons.injEq] at h
    exact absurd (h.1 ▸ List.mem_cons_self) hb
  | c :: a, [], _, _, ha, _, h => by
    simp only [List.nil_append, List.cons_append, List.cons.injEq] at h
    exact absurd (h.1 ▸ List.mem_cons_self) ha
  | c :: a, d :: b, _, _, ha, hb, h => by
    simp only [List.cons_append, List.cons.injEq] at h
    obtain ⟨h1, h2⟩ := line_unique (fun hm => ha (List.mem_cons_of_mem _ hm)) (fun hm => hb (List.mem_cons_of_mem _ hm)) h.2
    exact ⟨by rw [h.1, h1], h2⟩

theorem marks_line_unique : ∀ {a b : List Bool} {x y : Str}, marks a ++ ['+', '-', ' '] ++ x = marks b ++ ['+', '-', ' '] ++ y → a = b ∧ x = y
  | [], [], x, y, h => ⟨rfl, by simpa [marks] using h⟩
  | [], m :: b, x, y, h => by cases m <;> simp [marks] at h
  | m :: a, [], x, y, h => by cases m <;> simp [marks] at h
  | m :: a, k :: b, x, y, h => by
    have step : ∀ (m : Bool) (a : List Bool), marks (m :: a) = (if m then ['|', ' ', ' '] else [' ', ' ', ' ']) ++ marks a := fun _ _ => rfl
    rw [step, step] at h
    have hmk : m = k := by cases m <;> cases k <;> simp at h <;> rfl
    subst hmk
    have h' : marks a ++ ['+', '-', ' '] ++ x = marks b ++ ['+', '-', ' '] ++ y := by cases m <;> simpa using h
    obtain ⟨h1, h2⟩ := marks_line_unique h'
    exact ⟨by rw [h1], h2⟩

theorem marks_no_break (a : List Bool) : '\n' ∉ marks a := by
  intro h
  obtain ⟨m, _, hm⟩ := List.mem_flatMap.1 h
  cases m <;> simp at hm

theorem lines_unique : ∀ {xs ys : List (List Bool × Str)}, (∀ x ∈ xs, '\n' ∉ x.2) → (∀ y ∈ ys, '\n' ∉ y.2) →
    xs.flatMap lineText = ys.flatMap lineText → xs = ys
  | [], [], _, _, _ => rfl
  | [], y :: ys, _, _, h => by simp [lineText] at h
  | x :: xs, [], _, _, h => by simp [lineText] at h
  | x :: xs, y :: ys, hx, hy, h => by
    have nb : ∀ z : List Bool × Str, '\n' ∉ z.2 → '\n' ∉ marks z.1 ++ ['+', '-', ' '] ++ z.2 := by
      intro z hz hm
      simp only [List.mem_append] at hm
      rcases hm with (hm | hm) | hm
      · exact marks_no_break _ hm
      · simp at hm
      · exact hz hm
    have hl : ∀ z : List Bool × Str, lineText z = (marks z.1 ++ ['+', '-', ' '] ++ z.2) ++ ['\n'] := fun _ => rfl
    rw [List.flatMap_cons, List.flatMap_cons, hl, hl] at h
    have h : (marks x.1 ++ ['+', '-', ' '] ++ x.2) ++ '\n' :: xs.flatMap lineText = (marks y.1 ++ ['+', '-', ' '] ++ y.2) ++ '\n' :: ys.flatMap lineText := by
      simpa using h
    obtain ⟨h1, h2⟩ := line_unique (nb x (hx x (by simp))) (nb y (hy y (by simp))) h
    obtain ⟨h3, h4⟩ := marks_line_unique h1
    rw [lines_unique (fun z hz => hx z (List.mem_cons_of_mem _ hz)) (fun z hz => hy z (List.mem_cons_of_mem _ hz)) h2, Prod.ext h3 h4]

mutual
theorem nodeLines_oneLine : ∀ (s : Shape) (above : List Bool) (more : Bool), s.oneLine → ∀ x ∈ nodeLines above more s, '\n' ∉ x.2
  | .node label kids, above, more, h => by
    intro x hx
    rw [nodeLines, List.mem_cons] at hx
    rcases hx with hx | hx
    · rw [hx]; exact h.1
    · exact kidLines_oneLine kids _ h.2 x hx
theorem kidLines_oneLine : ∀ (ss : List Shape) (above : List Bool), oneLines ss → ∀ x ∈ kidLines above ss, '\n' ∉ x.2
  | [], _, _ => by intro x hx; simp [kidLines] at hx
  | s :: ss, above, h => by
    intro x hx
    rw [kidLines, List.mem_append] at hx
    rcases hx with hx | hx
    · exact nodeLines_oneLine s _ _ h.1 x hx
    · exact kidLines_oneLine ss _ h.2 x hx
end

/-- The lines start above the given depth, if there are any. -/
def Above (d : Nat) : List (List Bool × Str) → Prop
  | [] => True
  | x :: _ => x.1.length < d

theorem above_kidLines (above : List Bool) (ss : List Shape) (r : List (List Bool × Str)) (hr : Above (above.length + 1) r) :
    Above (above.length + 1) (kidLines above ss ++ r) := by
  cases ss with
  | nil => exact hr
  | cons s ss => cases s; simp [kidLines, nodeLines, Above]

mutual
theorem nodeLines_unique : ∀ (s s' : Shape) (above : List Bool) (more more' : Bool) (r r' : List (List Bool × Str)),
    Above (above.length + 1) r → Above (above.length + 1) r' → nodeLines above more s ++ r = nodeLines above more' s' ++ r' → s = s' ∧ r = r'
  | .node label kids, .node label' kids', above, more, more', r, r', hr, hr', h => by
    simp only [nodeLines, List.cons_append, List.cons.injEq, Prod.mk.injEq, true_and] at h
    obtain ⟨h1, h2⟩ := kidLines_unique kids kids' (above ++ [more]) (above ++ [more']) (by simp) r r' (by simpa using hr) (by simpa using hr') h.2
    exact ⟨by rw [h.1, h1], h2⟩
theorem kidLines_unique : ∀ (ss ss' : List Shape) (above above' : List Bool) (_ : above.length = above'.length) (r r' : List (List Bool × Str)),
    Above above.length r → Above above.length r' → kidLines above ss ++ r = kidLines above' ss' ++ r' → ss = ss' ∧ r = r'
  | [], [], _, _, _, _, _, _, _, h => ⟨rfl, h⟩
  | [], .node l ks :: ss', above, above', hl, r, r', hr, _, h => by
    simp only [kidLines, nodeLines, List.nil_append, List.cons_append] at h
    rw [h] at hr
    simp [Above, hl] at hr
  | .node l ks :: ss, [], above, above', hl, r, r', _, hr', h => by
    simp only [kidLines, nodeLines, List.nil_append, List.cons_append] at h
    rw [← h] at hr'
    simp [Above] at hr'
  | s :: ss, s' :: ss', above, above', hl, r, r', hr, hr', h => by
    have haa : above = above' := by
      cases s; cases s'
      simp only [kidLines, nodeLines, List.cons_append, List.cons.injEq, Prod.mk.injEq] at h
      exact h.1.1
    have weaken : ∀ {q : List (List Bool × Str)}, Above above.length q → Above (above.length + 1) q := by
      intro q hq
      cases q with
      | nil => trivial
      | cons x q => exact Nat.lt_succ_of_lt hq
    rw [← haa] at h
    simp only [kidLines, List.append_assoc] at h
    obtain ⟨h1, h2⟩ := nodeLines_unique s s' above _ _ _ _ (above_kidLines above ss r (weaken hr)) (above_kidLines above ss' r' (weaken hr')) h
    obtain ⟨h3, h4⟩ := kidLines_unique ss ss' above above rfl r r' hr hr' h2
    exact ⟨by rw [h1, h3], h4⟩
end

/-- **C81**, nothing is lost: two parse trees that are printed the same show the same, node by node, if no category or word has a line break. -/
theorem C81_determines (t u : ParseTree A) (ht : (shownTree t).oneLine) (hu : (shownTree u).oneLine) (h : treeText t [] = treeText u []) :
    shownTree t = shownTree u := by
  rw [C81_lines, C81_lines] at h
  cases hs : shownTree t with
  | node label kids =>
    cases hs' : shownTree u with
    | node label' kids' =>
      rw [hs] at ht h
      rw [hs'] at hu h
      simp only [List.append_assoc] at h
      obtain ⟨h1, h2⟩ := line_unique ht.1 hu.1 h
      have h3 := lines_unique (kidLines_oneLine kids [] ht.2) (kidLines_oneLine kids' [] hu.2) h2
      have h4 := kidLines_unique kids kids' [] [] rfl [] [] trivial trivial (by simpa using h3)
      rw [h1, h4.1]

/-! ## In the log -/

mutual
/-- All nodes without a word have a category, without white space (specification). -/
def namedNode : ParseTree A → Prop
  | .node c cs f _ => f = [] → c ≠ [] ∧ (∀ x ∈ c, x.isWhitespace = false) ∧ namedNodes cs
@[inherit_doc namedNode] def namedNodes : List (ParseTree A) → Prop
  | [] => True
  | t :: ts => namedNode t ∧ namedNodes ts
end

/-- The text ends with a line whose last character is no white space. -/
def EndsLine (s : Str) : Prop := ∃ a x, s = a ++ [x, '\n'] ∧ x.isWhitespace = false

theorem EndsLine.append {s : Str} (h : EndsLine s) (p : Str) : EndsLine (p ++ s) := by
  obtain ⟨a, x, h1, h2⟩ := h
  exact ⟨p ++ a, x, by rw [h1, List.append_assoc], h2⟩

theorem endsLine_name {c : Str} (h : c ≠ []) (hw : ∀ x ∈ c, x.isWhitespace = false) : EndsLine (c ++ ['\n']) := by
  refine ⟨c.dropLast, c.getLast h, ?_, hw _ (List.getLast_mem h)⟩
  have := List.dropLast_concat_getLast h
  calc c ++ ['\n'] = (c.dropLast ++ [c.getLast h]) ++ ['\n'] := by rw [this]
    _ = _ := by simp

theorem childrenText_ends : ∀ (ts : List (ParseTree A)) (indent : Str), namedNodes ts → ts ≠ [] → EndsLine (childrenText ts indent)
  | .node c cs f r :: [], indent, h, _ => by
    have h1 := h.1
    rw [namedNode] at h1
    simp only [childrenText, List.append_nil]
    by_cases hf : f = []
    · obtain ⟨hc, hw, hcs⟩ := h1 hf
      simp only [hf, ne_eq, not_true_eq_false, if_false]
      have hi : indent ++ [' ', ' ', ' '] ≠ [] := by simp
      simp only [if_true, treeText, if_neg hi, List.nil_append]
      cases cs with
      | nil =>
        simp only [childrenText, List.append_nil]
        rw [List.append_assoc]
        exact (endsLine_name hc hw).append _
      | cons t ts => exact (childrenText_ends (t :: ts) _ hcs (by simp)).append _
    · simp only [ne_eq, hf, not_false_eq_true, if_true]
      exact ⟨indent ++ ['+', '-', ' '] ++ c ++ [' ', '\''] ++ f, '\'', by simp, by decide⟩
  | t :: u :: ts, indent, h, _ => by
    cases t
    rw [childrenText]
    exact (childrenText_ends (u :: ts) indent h.2 (by simp)).append _

theorem stripText_line {c s : Str} {x : Char} (hx : x.isWhitespace = false) (h : EndsLine s) (hs : s = x :: c) : stripText s ++ ['\n'] = s := by
  obtain ⟨a, y, h1, hy⟩ := h
  have e1 : s.dropWhile Char.isWhitespace = s := by rw [hs, List.dropWhile_cons, hx]; rfl
  unfold stripText
  rw [e1, h1]
  have hn : ('\n').isWhitespace = true := by decide
  simp [hn, hy]

/-- **C81**, in the log: the entry for a parse tree is the printed tree, nothing is stripped from it but the last line break, which is put back. -/
theorem C81_logged (t : ParseTree A) (hc : t.category ≠ []) (hw : ∀ x ∈ t.category, x.isWhitespace = false) (hn : namedNodes t.children) :
    productEntries (.parse t) = [treeText t []] := by
  cases t with
  | node c cs f r =>
    simp only [ParseTree.category] at hc hw
    simp only [ParseTree.children] at hn
    have ends : EndsLine (treeText (.node c cs f r) []) := by
      simp only [treeText, if_true]
      cases cs with
      | nil => simpa [childrenText] using endsLine_name hc hw
      | cons u us => exact (childrenText_ends (u :: us) [] hn (by simp)).append _
    cases c with
    | nil => exact absurd rfl hc
    | cons x c =>
      simp only [productEntries, entry, List.cons.injEq, and_true]
      exact stripText_line (c := c ++ ['\n'] ++ childrenText cs []) (hw x (by simp)) ends (by simp [treeText])

/-! ## A tree -/

namespace TreeEx

def rule : GRule Nat := GRule.new (fun _ _ => 0) ⟨['s'], [], .relation, false, false⟩ [] .none
def leaf (c f : Str) : ParseTree Nat := .node c [] f rule
/-- `s(np(noun 'bob') vp(verb 'runs'))` -/
def tree : ParseTree Nat :=
  .node ['s'] [.node ['n', 'p'] [leaf ['n'] ['b', 'o', 'b']] [] rule, .node ['v', 'p'] [leaf ['v'] ['r', 'u', 'n', 's']] [] rule] [] rule

example : String.ofList (treeText tree []) = "s\n+- np\n|  +- n 'bob'\n+- vp\n   +- v 'runs'\n" := by decide +kernel

example : (shownTree tree).oneLine ∧ tree.category ≠ [] ∧ (∀ x ∈ tree.category, x.isWhitespace = false) ∧ namedNodes tree.children := by
  simp [tree, leaf, shownTree, shownNodes, shownNode, Shape.oneLine, oneLines, ParseTree.category, ParseTree.children, namedNodes, namedNode]

/-- Categories and words are not told apart for strange names: a category `n 'bob'` without a word is printed as the category `n` with the word `bob`. -/
example : treeText (.node ['s'] [leaf (['n', ' ', '\'', 'b', '\'']) []] [] rule) [] = treeText (.node ['s'] [leaf ['n'] ['b']] [] rule) [] := by
  decide +kernel

end TreeEx
end Verif
