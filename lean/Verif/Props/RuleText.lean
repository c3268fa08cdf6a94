import Verif.RuleText
import Verif.ReprLemmas
import Verif.Props.GrammarSyntax

/-!
# C83: printed rules

The specification for grammar rules is the notation of **C40** (`printRule`, `SynOk`); that for inference rules is equality.
-/

namespace Verif

/-! ## Grammar rules -/

section
variable (uni : Char → Bool)

/-- A constituent that is printed clearly (specification): names, variables, and words and regular expressions that need no escapes. -/
def ClearCons (c : Constituent) : Prop :=
  match c.pos with
  | .relation => NameOk uni c.predicate ∧ ∀ a ∈ c.args, VarOk uni a
  | .word => TextOk c.predicate ∧ '\'' ∉ c.predicate ∧ c.args = []
  | .regexp => TextOk c.predicate ∧ '/' ∉ c.predicate ∧ c.args = []

/-- A rule that is printed clearly (specification). -/
structure ClearRule {A : Type} (r : GRule A) : Prop where
  name : NameOk uni r.ante.predicate
  args : ∀ a ∈ r.ante.args, VarOk uni a
  cons : ∀ c ∈ r.cons, ClearCons uni c

end

/-- The constituent without the marks for optional constituents and separators (specification). -/
def Constituent.plain (c : Constituent) : Constituent := ⟨c.predicate, c.args, c.pos, false, false⟩

/-- A list with separators between its elements (specification). -/
def spaced : List Constituent → List Constituent
  | [] => []
  | [c] => [c]
  | c :: d :: cs => c :: ⟨[' '], [], .word, false, true⟩ :: spaced (d :: cs)

/-- The written constituent. -/
def Constituent.written (c : Constituent) : SynItem :=
  match c.pos with
  | .relation => .rel c.predicate c.args false
  | .word => .word c.predicate false
  | .regexp => .regexp c.predicate

/-- The written consequents, with spaces between them. -/
def synItems : List Constituent → List (SynItem × Joint) × Option SynItem
  | [] => ([], none)
  | [c] => ([], some c.written)
  | c :: d :: cs => ((c.written, .space) :: (synItems (d :: cs)).1, (synItems (d :: cs)).2)

theorem joinText_args : ∀ args : List Str, joinText [',', ' '] args = printArgs args
  | [] => rfl
  | [_] => rfl
  | a :: b :: as => by 
    rw [joinText, joinText_args (b :: as)]; simp [printArgs]

theorem escape_clear {q : Char} : ∀ {s : Str}, q ∉ s → escape q s = s
  | [], _ => rfl
  | c :: s, h => by
    have h1 : c ≠ q := fun e => h (e ▸ List.mem_cons_self)
    have h2 : q ∉ s := fun hm => h (List.mem_cons_of_mem _ hm)
    have ih := escape_clear h2
    unfold escape at ih
    simp [escape, h1, ih]

section
variable {uni : Char → Bool}

theorem syn_printed {c : Constituent} (h : ClearCons uni c) : printItem c.written = c.itemText := by
  obtain ⟨p, args, pos, o, s⟩ := c
  cases pos with
  | relation => simp [Constituent.written, Constituent.itemText, Constituent.text, printItem, printAtom, printOpt, joinText_args]
  | word => simp [Constituent.written, Constituent.itemText, printItem, printOpt, escape_clear h.2.1]
  | regexp => simp [Constituent.written, Constituent.itemText, printItem, escape_clear h.2.1]

theorem syn_constituent {c : Constituent} (h : ClearCons uni c) : itemConstituent c.written = c.plain := by
  obtain ⟨p, args, pos, o, s⟩ := c
  cases pos with
  | relation => rfl
  | word => simp [Constituent.written, itemConstituent, Constituent.plain, h.2.2.symm]
  | regexp => simp [Constituent.written, itemConstituent, Constituent.plain, h.2.2.symm]

theorem syn_ok {write : Bool} {c : Constituent} (h : ClearCons uni c) : ItemOk uni write c.written := by
  obtain ⟨p, args, pos, o, s⟩ := c
  cases pos with
  | relation => exact ⟨h.1, h.2, by simp⟩
  | word => exact h.1
  | regexp => exact h.1

theorem synItems_printed : ∀ {cs : List Constituent}, (∀ c ∈ cs, ClearCons uni c) →
    printItems (synItems cs).1 (synItems cs).2 = joinText [' '] (cs.map Constituent.itemText)
  | [], _ => rfl
  | [c], h => by simpa [synItems, printItems, joinText] using syn_printed (h c (by simp))
  | c :: d :: cs, h => by
    have := synItems_printed (cs := d :: cs) fun x hx => h x (List.mem_cons_of_mem _ hx)
    simp only [synItems, printItems, this, syn_printed (h c (by simp)), printJoint, List.map_cons, joinText]

theorem synItems_constituents : ∀ {cs : List Constituent}, (∀ c ∈ cs, ClearCons uni c) →
    itemsConstituents (synItems cs).1 (synItems cs).2 = spaced (cs.map Constituent.plain)
  | [], _ => rfl
  | [c], h => by simpa [synItems, itemsConstituents, spaced] using syn_constituent (h c (by simp))
  | c :: d :: cs, h => by
    have := synItems_constituents (cs := d :: cs) fun x hx => h x (List.mem_cons_of_mem _ hx)
    simp only [synItems, itemsConstituents, this, syn_constituent (h c (by simp)), jointConstituents, List.map_cons, spaced]
    rfl

theorem synItems_ok {write : Bool} : ∀ {cs : List Constituent}, (∀ c ∈ cs, ClearCons uni c) →
    (∀ i ∈ (synItems cs).1, ItemOk uni write i.1) ∧ (∀ i ∈ (synItems cs).2, ItemOk uni write i) ∧ (cs ≠ [] → (synItems cs).2 ≠ none)
  | [], _ => by simp [synItems]
  | [c], h => by simpa [synItems] using syn_ok (h c (by simp))
  | c :: d :: cs, h => by
    obtain ⟨h1, h2, h3⟩ := synItems_ok (write := write) (cs := d :: cs) fun x hx => h x (List.mem_cons_of_mem _ hx)
    refine ⟨?_, h2, fun _ => h3 (by simp)⟩
    intro i hi
    simp only [synItems, List.mem_cons] at hi
    rcases hi with rfl | hi
    · exact syn_ok (h c (by simp))
    · exact h1 i hi

variable {A : Type}

/-- **C83**, reading a printed grammar rule: the category and the variables come back, and the consequents in order with their kinds, names and
variables, with separators between them and without marks for optional constituents. -/
theorem C83_reread (write : Bool) (r : GRule A) (h : ClearRule uni r) :
    parseSyntax uni r.text write = .ok (⟨r.ante.predicate, r.ante.args, .relation, false, false⟩, spaced (r.cons.map Constituent.plain)) := by
  have ok := synItems_ok (write := write) h.cons
  have := C40_round_trip_partial (uni := uni) (write := write) (r := ⟨r.ante.predicate, r.ante.args, (synItems r.cons).1, (synItems r.cons).2⟩)
    ⟨h.name, h.args, ok.1, ok.2.1, fun hne => ok.2.2 fun he => by rw [he] at hne; exact hne rfl⟩
  rw [synItems_constituents h.cons] at this
  rw [← this]
  congr 1
  simp [GRule.text, printRule, printAtom, Constituent.text, joinText_args, synItems_printed h.cons]

theorem spaced_length : ∀ cs : List Constituent, (spaced cs).length = 2 * cs.length - 1
  | [] => rfl
  | [_] => rfl
  | c :: d :: cs => by simp only [spaced, List.length_cons, spaced_length (d :: cs)]; omega

theorem spaced_injective : ∀ {cs ds : List Constituent}, spaced cs = spaced ds → cs = ds
  | [], [], _ => rfl
  | [], [_], h => by simp [spaced] at h
  | [], _ :: _ :: _, h => by simp [spaced] at h
  | [_], [], h => by simp [spaced] at h
  | [_], [_], h => by simpa [spaced] using h
  | [_], _ :: _ :: _, h => by simp [spaced] at h
  | _ :: _ :: _, [], h => by simp [spaced] at h
  | _ :: _ :: _, [_], h => by simp [spaced] at h
  | c :: c' :: cs, d :: d' :: ds, h => by
    simp only [spaced, List.cons.injEq, true_and] at h
    rw [h.1, spaced_injective h.2]

/-- **C83**, grammar rules: two rules that are printed the same have the same category, the same variables and the same consequents, up to marks for
optional constituents and separators, which are not printed. -/
theorem C83_grammar_rule (r s : GRule A) (hr : ClearRule uni r) (hs : ClearRule uni s) (h : r.text = s.text) :
    r.ante.predicate = s.ante.predicate ∧ r.ante.args = s.ante.args ∧ r.cons.map Constituent.plain = s.cons.map Constituent.plain := by
  have h1 := C83_reread (uni := uni) true r hr
  rw [h, C83_reread true s hs] at h1
  simp only [Except.ok.injEq, Prod.mk.injEq, Constituent.mk.injEq, and_true] at h1
  exact ⟨h1.1.1.symm, h1.1.2.symm, (spaced_injective h1.2).symm⟩

/-- **C83**, finding: a printed grammar rule with more than one consequent is not read back as the same rule: it gets separators as well as the printed
ones. -/
theorem C83_not_read_back (write : Bool) (r : GRule A) (h : ClearRule uni r) (hl : 2 ≤ r.cons.length) (ante : Constituent) :
    parseSyntax uni r.text write ≠ .ok (ante, r.cons) := by
  rw [C83_reread write r h]
  intro e
  simp only [Except.ok.injEq, Prod.mk.injEq] at e
  have := congrArg List.length e.2
  rw [spaced_length, List.length_map] at this
  omega

end

/-- `s(E1) -> np(E1) ' ' 'runs' /\w+/` -/
def c83Rule : GRule Nat :=
  GRule.new (fun _ _ => 0) ⟨['s'], [['E', '1']], .relation, false, false⟩
    [⟨['n', 'p'], [['E', '1'], ['E', '2']], .relation, false, false⟩, ⟨[' '], [], .word, false, true⟩, ⟨['r', 'u', 'n', 's'], [], .word, false, false⟩,
     ⟨['\\', 'w', '+'], [], .regexp, false, false⟩] .none

example : String.ofList c83Rule.text = "s(E1) -> np(E1, E2) ' ' 'runs' /\\w+/" := by decide +kernel

example (uni : Char → Bool) : ClearRule uni c83Rule ∧ 2 ≤ c83Rule.cons.length := by
  refine ⟨⟨?_, ?_, ?_⟩, by decide⟩
  · simp [c83Rule, GRule.new, NameOk, isWordChar]
  · exact fun a ha => by simp only [c83Rule, GRule.new, List.mem_singleton] at ha; exact ⟨'E', ['1'], ha, by decide, by simp [isWordChar]⟩
  · have h1 : VarOk uni ['E', '1'] := ⟨'E', ['1'], rfl, by decide, by simp [isWordChar]⟩
    have h2 : VarOk uni ['E', '2'] := ⟨'E', ['2'], rfl, by decide, by simp [isWordChar]⟩
    simp [c83Rule, GRule.new, ClearCons, NameOk, h1, h2, TextOk, isWordChar]

/-! ## Inference rules -/

/-- A rule with proper names of variables whose body is a list of atoms (specification). -/
structure ClearInference (r : Rule) (atoms : List Value) : Prop where
  body : r.body = .list atoms
  head : legalList r.head = true
  names : legalList atoms = true
  noTexts : ∀ a ∈ atoms, ∀ s, a ≠ .str s

theorem joinText_reprItems : ∀ {atoms : List Value}, (∀ a ∈ atoms, ∀ s, a ≠ .str s) → joinText [',', ' '] (atoms.map strValue) = reprItems atoms
  | [], _ => rfl
  | [a], h => by
    have : ∀ s, a ≠ .str s := h a (by simp)
    cases a <;> simp_all [joinText, reprItems, strValue]
  | a :: b :: as, h => by
    have ih := joinText_reprItems (atoms := b :: as) fun x hx => h x (List.mem_cons_of_mem _ hx)
    have ha : strValue a = reprV a := by
      have : ∀ s, a ≠ .str s := h a (by simp)
      cases a <;> simp_all [strValue]
    rw [List.map_cons, List.map_cons, joinText, ← List.map_cons, ih, ha, reprItems]
    simp

/-- A printed tuple is its own end. -/
theorem tuple_unique {xs ys : List Value} (hx : legalList xs = true) (hy : legalList ys = true) {r r' : Str}
    (h : reprV (.tuple xs) ++ r = reprV (.tuple ys) ++ r') : xs = ys ∧ r = r' := by
  have items := fun (xs ys : List Value) => (repr_unique_aux (sizeOf xs + 1)).2 xs ys ')' (.inr rfl)
  have values := fun (v v' : Value) => (repr_unique_aux (sizeOf v + 1)).1 v v'
  have single : ∀ (x : Value), reprV (.tuple [x]) = '(' :: (reprV x ++ [',', ')']) := fun _ => by simp [reprV]
  have other : ∀ (xs : List Value), xs.length ≠ 1 → reprV (.tuple xs) = '(' :: (reprItems xs ++ [')']) := by
    intro xs hl
    match xs with
    | [] => simp [reprV]
    | [_] => simp at hl
    | _ :: _ :: _ => simp [reprV]
  have mixed : ∀ (x : Value) (ys : List Value) (r r' : Str), legal x = true → legalList ys = true → ys.length ≠ 1 →
      reprV (.tuple [x]) ++ r = reprV (.tuple ys) ++ r' → False := by
    intro x ys r r' hx hy hl h
    rw [single, other ys hl] at h
    simp only [List.cons_append, List.cons.injEq, true_and, List.append_assoc, List.nil_append] at h
    match ys, hy, hl, h with
    | [], _, _, h =>
      obtain ⟨c, cs, hc, _, _, _, hne⟩ := reprV_head x hx
      rw [hc] at h
      simp only [reprItems, List.nil_append, List.cons_append, List.cons.injEq] at h
      exact hne h.1
    | [_], _, hl, _ => exact hl rfl
    | y :: z :: ys, hy, _, h =>
      simp only [legalList, Bool.and_eq_true] at hy
      rw [reprItems] at h
      simp only [List.append_assoc, List.cons_append] at h
      obtain ⟨_, h2⟩ := values x y _ _ (Nat.lt_succ_self _) hx hy.1 (delim_comma _) (delim_comma _) h
      simp at h2
  by_cases hlx : xs.length = 1
  · obtain ⟨x, rfl⟩ := List.length_eq_one_iff.1 hlx
    simp only [legalList, Bool.and_true] at hx
    by_cases hly : ys.length = 1
    · obtain ⟨y, rfl⟩ := List.length_eq_one_iff.1 hly
      simp only [legalList, Bool.and_true] at hy
      rw [single, single] at h
      simp only [List.cons_append, List.cons.injEq, true_and, List.append_assoc, List.nil_append] at h
      obtain ⟨h1, h2⟩ := values x y _ _ (Nat.lt_succ_self _) hx hy (delim_comma _) (delim_comma _) h
      simp only [List.cons.injEq, true_and] at h2
      exact ⟨by rw [h1], h2⟩
    · exact (mixed x ys r r' hx hy hly h).elim
  · by_cases hly : ys.length = 1
    · obtain ⟨y, rfl⟩ := List.length_eq_one_iff.1 hly
      simp only [legalList, Bool.and_true] at hy
      exact (mixed y xs r' r hy hx hlx h.symm).elim
    · rw [other xs hlx, other ys hly] at h
      simp only [List.cons_append, List.cons.injEq, true_and, List.append_assoc, List.nil_append] at h
      exact items xs ys r r' (Nat.lt_succ_self _) hx hy h

theorem ruleText_eq {r : Rule} {atoms : List Value} (h : ClearInference r atoms) :
    r.text = .ok (reprV (.tuple r.head) ++ (if atoms = [] then [] else [' ', ':', '-', ' '] ++ reprItems atoms) ++ ['.']) := by
  unfold Rule.text
  rw [h.body]
  cases atoms with
  | nil => simp [strValue]
  | cons a as =>
    have := joinText_reprItems h.noTexts
    simp only [this]
    simp [strValue]

/-- **C83**, inference rules: two rules that are printed the same are the same. -/
theorem C83_inference_rule (r s : Rule) (atoms atoms' : List Value) (hr : ClearInference r atoms) (hs : ClearInference s atoms') (h : r.text = s.text) :
    r = s := by
  rw [ruleText_eq hr, ruleText_eq hs, Except.ok.injEq, List.append_assoc, List.append_assoc] at h
  obtain ⟨h1, h2⟩ := tuple_unique hr.head hs.head h
  have h3 := List.append_cancel_right h2
  have h4 : atoms = atoms' := by
    by_cases ha : atoms = []
    · by_cases hb : atoms' = []
      · rw [ha, hb]
      · simp [ha, hb] at h3
    · by_cases hb : atoms' = []
      · simp [ha, hb] at h3
      · simp only [ha, hb, if_false] at h3
        have h5 := List.append_cancel_left h3
        exact strRow_injective hr.names hs.names (by rw [strRow, strRow, h5])
  have hb := hr.body
  have hb' := hs.body
  obtain ⟨head, body⟩ := r
  obtain ⟨head', body'⟩ := s
  simp only at h1 hb hb'
  rw [h1, hb, hb', h4]

/-- `sibling(A, B) :- parent(C, A), parent(C, B).` and a fact with one element. -/
def c83Sibling : Rule :=
  ⟨[.str "sibling", .var "A", .var "B"], .list [.tuple [.str "parent", .var "C", .var "A"], .tuple [.str "parent", .var "C", .var "B"]]⟩

example : c83Sibling.text.toOption.map String.ofList = some "('sibling', A, B) :- ('parent', C, A), ('parent', C, B)." := by decide +kernel

example : ClearInference c83Sibling [.tuple [.str "parent", .var "C", .var "A"], .tuple [.str "parent", .var "C", .var "B"]] ∧
    ClearInference ⟨[.str "rain"], .list []⟩ [] := by
  refine ⟨⟨rfl, by decide +kernel, by decide +kernel, by simp⟩, ⟨rfl, by decide +kernel, by decide +kernel, by simp⟩⟩

end Verif
