import Verif.Grammar

/-!
# C36, C37, C38
-/

namespace Verif

variable {A : Type}

/-! ## C38 -/

mutual
/-- Specification: the rules of all nodes, from left to right. -/
def ParseTree.rules : ParseTree A → List (GRule A)
  | .node _ cs _ r => r :: ParseTree.rulesAll cs
/-- See `ParseTree.rules`. -/
def ParseTree.rulesAll : List (ParseTree A) → List (GRule A)
  | [] => []
  | c :: cs => c.rules ++ ParseTree.rulesAll cs
end

/-- Specification: the sum of the boosts of all rules in the tree. -/
def ParseTree.totalBoost (t : ParseTree A) : Int := (t.rules.map GRule.boost).sum

/-- Specification: the number of nodes made by a regular expression. -/
def ParseTree.regexpNodes (t : ParseTree A) : Nat := (t.rules.filter fun r => decide (r.ante.pos = .regexp)).length

/-- Specification: there is a path of `n` nodes downwards from the root. -/
inductive ParseTree.Path : ParseTree A → Nat → Prop
  | root (t) : Path t 1
  | down {cat cs form rule c n} : c ∈ cs → Path c n → Path (.node cat cs form rule) (n + 1)

/-- Specification: the depth is the length of a longest path. -/
def ParseTree.HasDepth (t : ParseTree A) (n : Nat) : Prop := t.Path n ∧ ∀ m, t.Path m → m ≤ n

mutual
theorem getBoost_eq (t : ParseTree A) : getBoost t = t.totalBoost := by
  cases t with
  | node c cs f r =>
    rw [getBoost, addBoosts_eq cs]
    simp [ParseTree.totalBoost, ParseTree.rules]
theorem addBoosts_eq (cs : List (ParseTree A)) (b : Int) : addBoosts cs b = b + ((ParseTree.rulesAll cs).map GRule.boost).sum := by
  cases cs with
  | nil => simp [addBoosts, ParseTree.rulesAll]
  | cons c cs =>
    rw [addBoosts, addBoosts_eq cs, getBoost_eq c]
    simp [ParseTree.rulesAll, ParseTree.totalBoost, Int.add_assoc]
end

mutual
theorem countTokens_eq (t : ParseTree A) : countTokens t = t.regexpNodes := by
  cases t with
  | node c cs f r =>
    rw [countTokens, addTokens_eq cs]
    simp only [ParseTree.regexpNodes, ParseTree.rules, List.filter_cons]
    by_cases h : r.ante.pos = .regexp
    · simp [h]; omega
    · simp [h]
theorem addTokens_eq (cs : List (ParseTree A)) (n : Int) :
    addTokens cs n = n + ((ParseTree.rulesAll cs).filter fun r => decide (r.ante.pos = .regexp)).length := by
  cases cs with
  | nil => simp [addTokens, ParseTree.rulesAll]
  | cons c cs =>
    rw [addTokens, addTokens_eq cs, countTokens_eq c]
    simp [ParseTree.rulesAll, ParseTree.regexpNodes, Int.add_assoc]
end

mutual
/-- The depth as a function, for the proof. -/
def ParseTree.height : ParseTree A → Nat
  | .node _ cs _ _ => ParseTree.heights cs + 1
/-- See `ParseTree.height`. -/
def ParseTree.heights : List (ParseTree A) → Nat
  | [] => 0
  | c :: cs => max c.height (ParseTree.heights cs)
end

theorem height_pos (t : ParseTree A) : 0 < t.height := by cases t; simp [ParseTree.height]

theorem le_heights {cs : List (ParseTree A)} {c : ParseTree A} (h : c ∈ cs) : c.height ≤ ParseTree.heights cs := by
  induction cs with
  | nil => simp at h
  | cons c' cs ih =>
    simp only [ParseTree.heights]
    rcases List.mem_cons.1 h with rfl | h
    · omega
    · have := ih h; omega

mutual
theorem path_height (t : ParseTree A) : t.Path t.height := by
  cases t with
  | node cat cs f r =>
    rcases paths_heights cs with h | ⟨c, hc, hp⟩
    · simp only [ParseTree.height, h]; exact .root _
    · simp only [ParseTree.height]; exact .down hc hp
theorem paths_heights (cs : List (ParseTree A)) : ParseTree.heights cs = 0 ∨ ∃ c ∈ cs, c.Path (ParseTree.heights cs) := by
  cases cs with
  | nil => exact .inl rfl
  | cons c cs =>
    right
    simp only [ParseTree.heights]
    by_cases hle : ParseTree.heights cs ≤ c.height
    · exact ⟨c, by simp, by rw [Nat.max_eq_left hle]; exact path_height c⟩
    · rcases paths_heights cs with h | ⟨d, hd, hp⟩
      · omega
      · exact ⟨d, List.mem_cons_of_mem _ hd, by rw [Nat.max_eq_right (by omega)]; exact hp⟩
end

theorem path_le {t : ParseTree A} {n : Nat} (h : t.Path n) : n ≤ t.height := by
  induction h with
  | root t => exact height_pos t
  | down hc _ ih =>
    have := le_heights hc
    simp only [ParseTree.height]; omega

theorem hasDepth_iff {t : ParseTree A} {n : Nat} : t.HasDepth n ↔ n = t.height := by
  constructor
  · rintro ⟨h1, h2⟩
    have := path_le h1
    have := h2 _ (path_height t)
    omega
  · rintro rfl
    exact ⟨path_height t, fun m h => path_le h⟩

mutual
theorem getDepth_eq (t : ParseTree A) (base : Int) : getDepth base t = base - t.height := by
  cases t with
  | node c cs f r =>
    rw [getDepth, minDepth_eq cs _ _ (Int.le_refl _)]
    simp only [ParseTree.height]; omega
theorem minDepth_eq (cs : List (ParseTree A)) (base d : Int) (hd : d ≤ base - 1) :
    minDepth base cs d = min d (base - 1 - ParseTree.heights cs) := by
  cases cs with
  | nil => simp only [minDepth, ParseTree.heights]; omega
  | cons c cs =>
    rw [minDepth, minDepth_eq cs _ _ (by omega), getDepth_eq c]
    simp only [ParseTree.heights]; omega
end

section sorting
variable {α : Type} (key : α → Int)

theorem insertByKey_perm (x : α) (l : List α) : (insertByKey key x l).Perm (x :: l) := by
  induction l with
  | nil => exact .refl _
  | cons y ys ih =>
    simp only [insertByKey]
    split
    · exact .refl _
    · exact (ih.cons y).trans (.swap x y ys)

theorem sortByKey_perm (l : List α) : (sortByKey key l).Perm l := by
  induction l with
  | nil => exact .refl _
  | cons x xs ih => exact (insertByKey_perm key x _).trans (ih.cons x)

/-- Sorting refines the order that was there. -/
theorem sortByKey_pairwise {R : α → α → Prop} {l : List α} (h : l.Pairwise R) :
    (sortByKey key l).Pairwise fun a b => key a < key b ∨ (key a = key b ∧ R a b) := by
  induction l with
  | nil => simp [sortByKey]
  | cons x xs ih =>
    obtain ⟨h1, h2⟩ := List.pairwise_cons.1 h
    have h1' : ∀ y ∈ sortByKey key xs, R x y := fun y hy => h1 y ((sortByKey_perm key xs).mem_iff.1 hy)
    have ih := ih h2
    simp only [sortByKey]
    generalize sortByKey key xs = s at ih h1'
    clear h h1 h2
    induction s with
    | nil => simp [insertByKey]
    | cons y ys ihs =>
      obtain ⟨hy, hys⟩ := List.pairwise_cons.1 ih
      simp only [insertByKey]
      split
      next hle =>
        refine List.pairwise_cons.2 ⟨?_, ih⟩
        intro z hz
        have hR := h1' z hz
        rcases List.mem_cons.1 hz with rfl | hz
        · by_cases he : key x = key z
          · exact .inr ⟨he, hR⟩
          · exact .inl (by omega)
        · have := hy z hz
          by_cases he : key x = key z
          · exact .inr ⟨he, hR⟩
          · exact .inl (by rcases this with h | ⟨h, _⟩ <;> omega)
      next hle =>
        refine List.pairwise_cons.2 ⟨?_, ihs hys fun z hz => h1' z (List.mem_cons_of_mem _ hz)⟩
        intro z hz
        rcases List.mem_cons.1 ((insertByKey_perm key x ys).mem_iff.1 hz) with rfl | hz
        · exact .inl (by omega)
        · exact hy z hz

/-- Sorting does not reorder elements with equal keys. -/
theorem sortByKey_filter (p : α → Bool) (k : Int) (hp : ∀ x, p x = true → key x = k) (l : List α) :
    (sortByKey key l).filter p = l.filter p := by
  induction l with
  | nil => rfl
  | cons x xs ih =>
    have hsorted : (sortByKey key xs).Pairwise fun a b => key a < key b ∨ (key a = key b ∧ True) :=
      sortByKey_pairwise key (R := fun _ _ => True) (List.pairwise_of_forall fun _ _ => trivial)
    simp only [sortByKey]
    rw [List.filter_cons, ← ih]
    generalize sortByKey key xs = s at hsorted
    clear ih
    induction s with
    | nil => simp [insertByKey, List.filter_cons]
    | cons y ys ihs =>
      obtain ⟨hy, hys⟩ := List.pairwise_cons.1 hsorted
      simp only [insertByKey]
      split
      next => rw [List.filter_cons]
      next hle =>
        rw [List.filter_cons, ihs hys]
        by_cases hx : p x = true
        · have hny : p y = false := by
            cases hpy : p y with
            | false => rfl
            | true => have := hp x hx; have := hp y hpy; omega
          simp [hx, hny]
        · simp [hx, List.filter_cons]

end sorting

/-- Specification: `a` is ranked before `b`, or they tie. -/
def RankedBefore (a b : ParseTree A) : Prop :=
  b.totalBoost < a.totalBoost ∨ (a.totalBoost = b.totalBoost ∧
    (a.regexpNodes < b.regexpNodes ∨ (a.regexpNodes = b.regexpNodes ∧ ∀ m n, a.HasDepth m → b.HasDepth n → n ≤ m)))

/-- Specification: `a` and `b` tie. -/
def RankTie (a b : ParseTree A) : Prop :=
  a.totalBoost = b.totalBoost ∧ a.regexpNodes = b.regexpNodes ∧ ∀ n, a.HasDepth n ↔ b.HasDepth n

/-- **C38** The sorted list has the same trees. -/
theorem C38_permutation (trees : List (ParseTree A)) : (sortTrees trees).Perm trees :=
  ((sortByKey_perm _ _).trans (sortByKey_perm _ _)).trans (sortByKey_perm _ _)

/-- **C38** The sorted list is ordered by boost, then regular expressions, then depth. -/
theorem C38_order (trees : List (ParseTree A)) : (sortTrees trees).Pairwise RankedBefore := by
  have h1 := sortByKey_pairwise (getDepth 0) (R := fun _ _ => True) (l := trees) (List.pairwise_of_forall fun _ _ => trivial)
  have h2 := sortByKey_pairwise countTokens h1
  have h3 := sortByKey_pairwise (fun t => - getBoost t) h2
  refine List.Pairwise.imp ?_ h3
  intro a b h
  simp only [getBoost_eq, countTokens_eq, getDepth_eq] at h
  unfold RankedBefore
  simp only [hasDepth_iff]
  rcases h with h | ⟨h, h'⟩
  · exact .inl (by omega)
  · refine .inr ⟨by omega, ?_⟩
    rcases h' with h' | ⟨h', h''⟩
    · exact .inl (by omega)
    · refine .inr ⟨by omega, ?_⟩
      rintro m n rfl rfl
      omega

/-- **C38** Trees that tie keep their order. -/
theorem C38_stable (trees : List (ParseTree A)) (t : ParseTree A) (p : ParseTree A → Bool) (hp : ∀ u, p u = true ↔ RankTie t u) :
    (sortTrees trees).filter p = trees.filter p := by
  have h : ∀ u, p u = true → getBoost u = getBoost t ∧ countTokens u = countTokens t ∧ getDepth 0 u = getDepth 0 t := by
    intro u hu
    obtain ⟨h1, h2, h3⟩ := (hp u).1 hu
    simp only [hasDepth_iff] at h3
    have h3 := (h3 t.height).1 rfl
    simp only [getBoost_eq, countTokens_eq, getDepth_eq]
    omega
  simp only [sortTrees, sortByBoost, sortByRegExpCount, sortByTreeDepth]
  rw [sortByKey_filter _ p (- getBoost t) (fun u hu => by simp [(h u hu).1]),
    sortByKey_filter _ p (countTokens t) (fun u hu => (h u hu).2.1), sortByKey_filter _ p (getDepth 0 t) (fun u hu => (h u hu).2.2)]

/-- A rule with the given boost, for the examples. -/
def exRule (name : Char) (boost : Int) (pos : PosType := .relation) : GRule Unit := ⟨⟨[name], [], pos, false, false⟩, [], .none, boost, 0⟩

example : (sortTrees [.node ['a'] [] [] (exRule 'a' 0), .node ['b'] [.node ['c'] [] [] (exRule 'c' 0)] [] (exRule 'b' 0),
    .node ['d'] [] [] (exRule 'd' 1)]).map ParseTree.category = [['d'], ['b'], ['a']] := by decide +kernel

example : RankTie (A := Unit) (.node ['a'] [] [] (exRule 'a' 0)) (.node ['b'] [] [] (exRule 'b' 0)) := by
  refine ⟨by decide +kernel, by decide +kernel, fun n => ?_⟩
  simp [hasDepth_iff, ParseTree.height, ParseTree.heights]

/-! ## C37 -/

theorem Assoc.get_set {K V : Type} [DecidableEq K] (d : Assoc K V) (k k' : K) (v : V) :
    (d.set k v).get k' = if k = k' then some v else d.get k' := by
  induction d with
  | nil => simp [Assoc.set, Assoc.get]
  | cons kv d ih =>
    obtain ⟨k1, v1⟩ := kv
    simp only [Assoc.set]
    by_cases h1 : k1 = k
    · subst h1
      simp only [if_true, Assoc.get]
      split <;> rfl
    · simp only [h1, if_false, Assoc.get, ih]
      by_cases h2 : k1 = k'
      · subst h2
        have : k ≠ k1 := fun h => h1 h.symm
        simp [this]
      · simp [h2]

theorem findRules_addRule (g : Grammar A) (rule : GRule A) (p : Str) (n : Nat) :
    (g.addRule rule).findRules p n =
      g.findRules p n ++ (if rule.ante.predicate = p ∧ rule.ante.args.length = n then ruleVariants rule else []) := by
  simp only [Grammar.addRule, Grammar.findRules]
  by_cases hp : rule.ante.predicate = p
  · subst hp
    by_cases hn : rule.ante.args.length = n
    · subst hn
      cases hg : Assoc.get g rule.ante.predicate with
      | none => simp [Assoc.get_set, Assoc.get]
      | some inner =>
        simp only [Assoc.get_set, Option.isNone_some, Bool.false_eq_true, if_false, hg, Option.getD_some, if_true, and_self]
        cases hi : Assoc.get inner rule.ante.args.length with
        | none => simp [Assoc.get_set]
        | some rules => simp [hi]
    · cases hg : Assoc.get g rule.ante.predicate with
      | none => simp [Assoc.get_set, Assoc.get, hn]
      | some inner =>
        simp only [Assoc.get_set, Option.isNone_some, Bool.false_eq_true, if_false, hg, Option.getD_some, if_true, hn, and_false,
          List.append_nil]
        cases hi : Assoc.get inner rule.ante.args.length with
        | none => simp [Assoc.get_set, hn]
        | some rules => simp
  · simp only [Assoc.get_set, hp, if_false, false_and, List.append_nil]
    cases hg : Assoc.get g rule.ante.predicate with
    | none => simp [Assoc.get_set, hp]
    | some inner => simp

/-- **C37** Lookup returns the variants of exactly the rules added with that antecedent and number of arguments, in the order of
addition; `before` is what the grammar had already. -/
theorem C37_lookup_after (g : Grammar A) (rules : List (GRule A)) (p : Str) (n : Nat) :
    (rules.foldl Grammar.addRule g).findRules p n = g.findRules p n ++
      (rules.filter fun r => decide (r.ante.predicate = p ∧ r.ante.args.length = n)).flatMap ruleVariants := by
  induction rules generalizing g with
  | nil => simp
  | cons r rules ih =>
    rw [List.foldl_cons, ih, findRules_addRule, List.filter_cons]
    by_cases h : r.ante.predicate = p ∧ r.ante.args.length = n
    · simp [h]
    · simp [h]

/-- **C37** The same for a new grammar. -/
theorem C37_lookup (rules : List (GRule A)) (p : Str) (n : Nat) :
    (Grammar.new rules).findRules p n =
      (rules.filter fun r => decide (r.ante.predicate = p ∧ r.ante.args.length = n)).flatMap ruleVariants := by
  have := C37_lookup_after [] rules p n
  simpa [Grammar.findRules, Assoc.get, Grammar.new] using this

/-! ## C36 -/

/-- Every list of `vs` extended with every list of `ws`: the order in which the variants come. -/
theorem variantsRest_append (cs : List Constituent) : ∀ (first : Bool) (vs : List (List Constituent)),
    ∀ v, v ∈ variantsRest first cs vs ↔ ∃ pre ∈ vs, ∃ post ∈ variantsRest first cs [[]], v = pre ++ post := by
  suffices H : ∀ (k : Nat) (cs : List Constituent), cs.length ≤ k → ∀ (first : Bool) (vs : List (List Constituent)),
      ∀ v, v ∈ variantsRest first cs vs ↔ ∃ pre ∈ vs, ∃ post ∈ variantsRest first cs [[]], v = pre ++ post from H cs.length cs (Nat.le_refl _)
  intro k
  induction k with
  | zero =>
    intro cs hk first vs v
    have : cs = [] := by simpa using hk
    subst this
    simp [variantsRest]
  | succ k ih =>
    intro cs hk first vs v
    -- the two forms of a step
    have opt : ∀ (first' : Bool) (g rest : List Constituent), rest.length ≤ k →
        (v ∈ variantsRest first' rest (vs.map (fun v => v ++ g) ++ vs) ↔
          ∃ pre ∈ vs, ∃ post ∈ variantsRest first' rest ([[]].map (fun v => v ++ g) ++ [[]]), v = pre ++ post) := by
      intro first' g rest hr
      rw [ih rest hr]
      constructor
      · rintro ⟨pre, hpre, post, hpost, rfl⟩
        rcases List.mem_append.1 hpre with h | h
        · obtain ⟨p, hp, rfl⟩ := List.mem_map.1 h
          exact ⟨p, hp, g ++ post, (ih rest hr _ _ _).2 ⟨g, by simp, post, hpost, rfl⟩, by simp⟩
        · exact ⟨pre, h, post, (ih rest hr _ _ _).2 ⟨[], by simp, post, hpost, rfl⟩, rfl⟩
      · rintro ⟨pre, hpre, post, hpost, rfl⟩
        obtain ⟨x, hx, post', hpost', rfl⟩ := (ih rest hr _ _ _).1 hpost
        simp only [List.map_cons, List.nil_append, List.map_nil, List.cons_append, List.mem_cons, List.not_mem_nil, or_false] at hx
        rcases hx with rfl | rfl
        · exact ⟨pre ++ x, List.mem_append.2 (.inl (List.mem_map.2 ⟨pre, hpre, rfl⟩)), post', hpost', by simp⟩
        · exact ⟨pre, List.mem_append.2 (.inr hpre), post', hpost', rfl⟩
    have man : ∀ (first' : Bool) (g rest : List Constituent), rest.length ≤ k →
        (v ∈ variantsRest first' rest (vs.map (fun v => v ++ g)) ↔
          ∃ pre ∈ vs, ∃ post ∈ variantsRest first' rest ([[]].map (fun v => v ++ g)), v = pre ++ post) := by
      intro first' g rest hr
      rw [ih rest hr]
      constructor
      · rintro ⟨pre, hpre, post, hpost, rfl⟩
        obtain ⟨p, hp, rfl⟩ := List.mem_map.1 hpre
        exact ⟨p, hp, g ++ post, (ih rest hr _ _ _).2 ⟨g, by simp, post, hpost, rfl⟩, by simp⟩
      · rintro ⟨pre, hpre, post, hpost, rfl⟩
        obtain ⟨x, hx, post', hpost', rfl⟩ := (ih rest hr _ _ _).1 hpost
        simp only [List.map_cons, List.nil_append, List.map_nil, List.mem_cons, List.not_mem_nil, or_false] at hx
        subst hx
        exact ⟨pre ++ x, List.mem_map.2 ⟨pre, hpre, rfl⟩, post', hpost', by simp⟩
    match cs with
    | [] => simp [variantsRest]
    | [c] =>
      simp only [variantsRest]
      split
      · have := opt false [c] [] (by simp); simpa [variantsRest] using this
      · have := man false [c] [] (by simp); simpa [variantsRest] using this
    | c :: look :: rest =>
      simp only [List.length_cons] at hk
      simp only [variantsRest]
      split
      · exact opt false [c, look] rest (by omega)
      · split
        · exact opt false [c, look] rest (by omega)
        · split
          · exact opt false [c] (look :: rest) (by simp; omega)
          · exact man false [c] (look :: rest) (by simp; omega)

/-- A step that may leave out a group. -/
theorem variantsRest_opt {first : Bool} {g rest v : List Constituent} :
    v ∈ variantsRest first rest ([[]].map (fun v => v ++ g) ++ [[]]) ↔
      (∃ w ∈ variantsRest first rest [[]], v = g ++ w) ∨ v ∈ variantsRest first rest [[]] := by
  rw [variantsRest_append]
  simp only [List.map_cons, List.nil_append, List.map_nil, List.cons_append, List.mem_cons, List.not_mem_nil, or_false, exists_eq_or_imp,
    exists_eq_left]
  constructor
  · rintro (h | ⟨w, hw, rfl⟩)
    · exact .inl h
    · exact .inr hw
  · rintro (h | h)
    · exact .inl h
    · exact .inr ⟨v, h, rfl⟩

/-- A step that keeps a group. -/
theorem variantsRest_man {first : Bool} {g rest v : List Constituent} :
    v ∈ variantsRest first rest ([[]].map (fun v => v ++ g)) ↔ ∃ w ∈ variantsRest first rest [[]], v = g ++ w := by
  rw [variantsRest_append]
  simp

/-- **C36** A rule without optional constituents has itself as only variant. -/
theorem C36_no_optional (rule : GRule A) (h : ∀ c ∈ rule.cons, c.optional = false) : ruleVariants rule = [rule] := by
  have key : ∀ (cs : List Constituent) (first : Bool) (v : List Constituent), (∀ c ∈ cs, c.optional = false) →
      variantsRest first cs [v] = [v ++ cs] := by
    intro cs
    induction cs with
    | nil => intro first v _; simp [variantsRest]
    | cons c cs ih =>
      intro first v h
      cases cs with
      | nil => simp [variantsRest, h c (by simp)]
      | cons l rest =>
        have hc := h c (by simp)
        have hl := h l (by simp)
        simp only [variantsRest, hc, hl, Bool.and_false, Bool.false_and, Bool.false_eq_true, if_false, List.map_cons, List.map_nil]
        rw [ih false _ fun x hx => h x (List.mem_cons_of_mem _ hx)]
        simp
  simp [ruleVariants, key rule.cons true [] h]

/-- The part of `C36` that holds of every rule, about one call. -/
theorem variants_general (cs : List Constituent) : ∀ (first : Bool) (v : List Constituent), v ∈ variantsRest first cs [[]] →
    v.Sublist cs ∧ v.filter (fun c => !c.optional && !c.separator) = cs.filter (fun c => !c.optional && !c.separator) := by
  suffices H : ∀ (k : Nat) (cs : List Constituent), cs.length ≤ k → ∀ (first : Bool) (v : List Constituent),
      v ∈ variantsRest first cs [[]] →
      v.Sublist cs ∧ v.filter (fun c => !c.optional && !c.separator) = cs.filter (fun c => !c.optional && !c.separator) from
    H cs.length cs (Nat.le_refl _)
  intro k
  induction k with
  | zero =>
    intro cs hk first v hv
    have : cs = [] := by simpa using hk
    subst this
    simp [variantsRest] at hv
    subst hv; simp
  | succ k ih =>
    intro cs hk first v hv
    have opt : ∀ (first' : Bool) (g rest : List Constituent), rest.length ≤ k → g.filter (fun c => !c.optional && !c.separator) = [] →
        v ∈ variantsRest first' rest ([[]].map (fun v => v ++ g) ++ [[]]) →
        v.Sublist (g ++ rest) ∧
          v.filter (fun c => !c.optional && !c.separator) = (g ++ rest).filter (fun c => !c.optional && !c.separator) := by
      intro first' g rest hr hg hv
      rcases variantsRest_opt.1 hv with ⟨w, hw, rfl⟩ | hv
      · obtain ⟨h1, h2⟩ := ih rest hr _ _ hw
        exact ⟨h1.append_left g, by rw [List.filter_append, List.filter_append, h2]⟩
      · obtain ⟨h1, h2⟩ := ih rest hr _ _ hv
        exact ⟨h1.trans (List.sublist_append_right _ _), by rw [List.filter_append, hg, h2]; rfl⟩
    have man : ∀ (first' : Bool) (g rest : List Constituent), rest.length ≤ k →
        v ∈ variantsRest first' rest ([[]].map (fun v => v ++ g)) →
        v.Sublist (g ++ rest) ∧
          v.filter (fun c => !c.optional && !c.separator) = (g ++ rest).filter (fun c => !c.optional && !c.separator) := by
      intro first' g rest hr hv
      obtain ⟨w, hw, rfl⟩ := variantsRest_man.1 hv
      obtain ⟨h1, h2⟩ := ih rest hr _ _ hw
      exact ⟨h1.append_left g, by rw [List.filter_append, List.filter_append, h2]⟩
    match cs with
    | [] => simp [variantsRest] at hv; subst hv; simp
    | [c] =>
      rw [variantsRest] at hv
      split at hv
      next hc => exact opt false [c] [] (by simp) (by simp [hc]) hv
      next hc => exact man false [c] [] (by simp) hv
    | c :: look :: rest =>
      simp only [List.length_cons] at hk
      rw [variantsRest] at hv
      split at hv
      next hc =>
        simp only [Bool.and_eq_true] at hc
        exact opt false [c, look] rest (by omega) (by simp [hc.1.1.2, hc.2]) hv
      next =>
        split at hv
        next hc =>
          simp only [Bool.and_eq_true] at hc
          exact opt false [c, look] rest (by omega) (by simp [hc.1.1, hc.1.2]) hv
        next =>
          split at hv
          next hc => exact opt false [c] (look :: rest) (by simp; omega) (by simp [hc]) hv
          next => exact man false [c] (look :: rest) (by simp; omega) hv

/-- **C36** The variants of any rule have its antecedent, semantics and boost; their consequents are some of its consequents in the
same order, with all that are mandatory and no separators. -/
theorem C36_mandatory (rule v : GRule A) (h : v ∈ ruleVariants rule) :
    v = { rule with cons := v.cons } ∧ v.cons.Sublist rule.cons ∧
    v.cons.filter (fun c => !c.optional && !c.separator) = rule.cons.filter (fun c => !c.optional && !c.separator) := by
  obtain ⟨cs, hcs, rfl⟩ := List.mem_map.1 h
  obtain ⟨h1, h2⟩ := variants_general _ _ _ hcs
  exact ⟨rfl, h1, h2⟩

/-- A constituent with the separator before it, if there is one. -/
structure Seg where
  sep : Option Constituent
  body : Constituent

/-- The constituents of a segment. -/
def Seg.parts (s : Seg) : List Constituent := s.sep.toList ++ [s.body]

/-- Specification: `sel` is `tail` without some of the segments whose body is optional. -/
inductive Selected : List Seg → List Seg → Prop
  | nil : Selected [] []
  | keep (s) {tail sel} : Selected tail sel → Selected (s :: tail) (s :: sel)
  | drop {s tail sel} : s.body.optional = true → Selected tail sel → Selected (s :: tail) sel

/-- Specification: consequents without doubled, leading or trailing separators. -/
def SeparatorsOk (cs : List Constituent) : Prop :=
  (∀ c, cs.head? = some c → c.separator = false) ∧ (∀ c, cs.getLast? = some c → c.separator = false) ∧
  ∀ pre a b post, cs = pre ++ a :: b :: post → ¬ (a.separator = true ∧ b.separator = true)

/-- The rules for which the full statement is proved: an optional first constituent with its separator (or none), a mandatory
constituent, and then constituents, optional or not, each with or without a separator before it. -/
structure RuleShape where
  lead : Option (Constituent × Constituent)
  head : Constituent
  tail : List Seg

/-- The shape is right: bodies are no separators, separators are mandatory separators. -/
structure RuleShape.Ok (s : RuleShape) : Prop where
  lead : ∀ c sep, s.lead = some (c, sep) → c.optional = true ∧ c.separator = false ∧ sep.separator = true
  head : s.head.optional = false ∧ s.head.separator = false
  tail : ∀ seg ∈ s.tail, seg.body.separator = false ∧ ∀ sep, seg.sep = some sep → sep.separator = true ∧ sep.optional = false

/-- The leading group. -/
def RuleShape.leadParts (s : RuleShape) : List Constituent := match s.lead with
  | some (c, sep) => [c, sep]
  | none => []

/-- The consequents of a rule of this shape. -/
def RuleShape.cons (s : RuleShape) : List Constituent := s.leadParts ++ s.head :: s.tail.flatMap Seg.parts

theorem variants_tail (tail : List Seg)
    (h : ∀ seg ∈ tail, seg.body.separator = false ∧ ∀ sep, seg.sep = some sep → sep.separator = true ∧ sep.optional = false)
    (v : List Constituent) :
    v ∈ variantsRest false (tail.flatMap Seg.parts) [[]] ↔ ∃ sel, Selected tail sel ∧ v = sel.flatMap Seg.parts := by
  induction tail generalizing v with
  | nil =>
    simp only [List.flatMap_nil, variantsRest, List.mem_singleton]
    constructor
    · rintro rfl; exact ⟨[], .nil, rfl⟩
    · rintro ⟨sel, hs, rfl⟩; cases hs; rfl
  | cons seg tail ih =>
    have ih := fun v => ih (fun s hs => h s (List.mem_cons_of_mem _ hs)) v
    have hopt : ∀ v, ((∃ w ∈ variantsRest false (tail.flatMap Seg.parts) [[]], v = seg.parts ++ w) ∨
          v ∈ variantsRest false (tail.flatMap Seg.parts) [[]]) → seg.body.optional = true →
        ∃ sel, Selected (seg :: tail) sel ∧ v = sel.flatMap Seg.parts := by
      rintro v (⟨w, hw, rfl⟩ | hv) ho
      · obtain ⟨sel, hs, rfl⟩ := (ih w).1 hw
        exact ⟨seg :: sel, .keep seg hs, by simp⟩
      · obtain ⟨sel, hs, rfl⟩ := (ih v).1 hv
        exact ⟨sel, .drop ho hs, rfl⟩
    have hconv : ∀ v sel, Selected (seg :: tail) sel → v = sel.flatMap Seg.parts →
        (∃ w ∈ variantsRest false (tail.flatMap Seg.parts) [[]], v = seg.parts ++ w) ∨
          (seg.body.optional = true ∧ v ∈ variantsRest false (tail.flatMap Seg.parts) [[]]) := by
      intro v sel hs hv
      subst hv
      cases hs with
      | keep _ hs => exact .inl ⟨_, (ih _).2 ⟨_, hs, rfl⟩, by simp⟩
      | drop ho hs => exact .inr ⟨ho, (ih _).2 ⟨_, hs, rfl⟩⟩
    have hman : ∀ v, (∃ w ∈ variantsRest false (tail.flatMap Seg.parts) [[]], v = seg.parts ++ w) →
        ∃ sel, Selected (seg :: tail) sel ∧ v = sel.flatMap Seg.parts := by
      rintro v ⟨w, hw, rfl⟩
      obtain ⟨sel, hs, rfl⟩ := (ih w).1 hw
      exact ⟨seg :: sel, .keep seg hs, by simp⟩
    obtain ⟨hb, hsep⟩ := h seg (by simp)
    -- one step of the loop for a body alone
    have body : ∀ (w : List Constituent) (rest : List Constituent) , w ∈ variantsRest false (seg.body :: rest) [[]] ↔
        if seg.body.optional then w ∈ variantsRest false rest ([[]].map (fun v => v ++ [seg.body]) ++ [[]])
        else w ∈ variantsRest false rest ([[]].map (fun v => v ++ [seg.body])) := by
      intro w rest
      cases rest with
      | nil => cases ho : seg.body.optional <;> simp [variantsRest, ho]
      | cons l rest =>
        rw [variantsRest]
        simp only [Bool.false_and, Bool.false_eq_true, if_false, hb]
        cases ho : seg.body.optional <;> simp
    cases hs : seg.sep with
    | none =>
      have hparts : seg.parts = [seg.body] := by simp [Seg.parts, hs]
      rw [List.flatMap_cons, hparts, List.singleton_append, body]
      cases ho : seg.body.optional with
      | true =>
        rw [if_pos rfl, variantsRest_opt]
        constructor
        · intro hv; exact hopt v (by rw [hparts]; exact hv) ho
        · rintro ⟨sel, hs', hv⟩
          rcases hconv v sel hs' hv with h | h
          · left; rw [hparts] at h; exact h
          · exact .inr h.2
      | false =>
        rw [if_neg (by simp), variantsRest_man]
        constructor
        · intro hv; exact hman v (by rw [hparts]; exact hv)
        · rintro ⟨sel, hs', hv⟩
          rcases hconv v sel hs' hv with h | h
          · rw [hparts] at h; exact h
          · rw [ho] at h; simp at h
    | some sep =>
      obtain ⟨hs1, hs2⟩ := hsep sep hs
      have hparts : seg.parts = [sep, seg.body] := by simp [Seg.parts, hs]
      rw [List.flatMap_cons, hparts, List.cons_append, List.singleton_append, variantsRest]
      simp only [Bool.false_and, Bool.false_eq_true, if_false, hs1, hs2, hb, Bool.true_and, Bool.not_false, Bool.and_true]
      cases ho : seg.body.optional with
      | true =>
        rw [if_pos rfl, variantsRest_opt]
        constructor
        · intro hv; exact hopt v (by rw [hparts]; exact hv) ho
        · rintro ⟨sel, hs', hv⟩
          rcases hconv v sel hs' hv with h | h
          · left; rw [hparts] at h; exact h
          · exact .inr h.2
      | false =>
        rw [if_neg (by simp), variantsRest_man]
        have : ∀ w, w ∈ variantsRest false (seg.body :: tail.flatMap Seg.parts) [[]] ↔
            ∃ w' ∈ variantsRest false (tail.flatMap Seg.parts) [[]], w = [seg.body] ++ w' := by
          intro w
          rw [body, ho, if_neg (by simp), variantsRest_man]
        simp only [this]
        constructor
        · rintro ⟨w, ⟨w', hw', rfl⟩, rfl⟩
          exact hman _ ⟨w', hw', by rw [hparts]; rfl⟩
        · rintro ⟨sel, hs', hv⟩
          rcases hconv v sel hs' hv with ⟨w, hw, rfl⟩ | h
          · exact ⟨_, ⟨w, hw, rfl⟩, by rw [hparts]; rfl⟩
          · rw [ho] at h; simp at h

/-- **C36** For rules of the usual shape (at most the first constituent optional with its separator after it, then a mandatory one,
then any with their separators before them) the variants are exactly the independent choices of optional constituents, each with its
separator. Missing in full: rules with several leading optional constituents and optional separators, where the statement is false
(`C36_leading_optionals`, `C36_optional_separator`). -/
theorem C36_variants_partial (s : RuleShape) (hs : s.Ok) (rule : GRule A) (hr : rule.cons = s.cons) (cs : List Constituent) :
    { rule with cons := cs } ∈ ruleVariants rule ↔
      ∃ keep : Bool, ∃ sel, Selected s.tail sel ∧ cs = (if keep then s.leadParts else []) ++ s.head :: sel.flatMap Seg.parts := by
  have hmem : { rule with cons := cs } ∈ ruleVariants rule ↔ cs ∈ variantsRest true rule.cons [[]] := by
    simp only [ruleVariants, List.mem_map]
    constructor
    · rintro ⟨cs', h, he⟩
      have : cs' = cs := congrArg GRule.cons he
      rw [← this]; exact h
    · intro h; exact ⟨cs, h, rfl⟩
  rw [hmem, hr]
  obtain ⟨hl, ⟨hh1, hh2⟩, ht⟩ := hs
  have htail := variants_tail s.tail ht
  have hhead : ∀ first v, v ∈ variantsRest first (s.head :: s.tail.flatMap Seg.parts) [[]] ↔
      ∃ sel, Selected s.tail sel ∧ v = s.head :: sel.flatMap Seg.parts := by
    intro first v
    have step : v ∈ variantsRest first (s.head :: s.tail.flatMap Seg.parts) [[]] ↔
        v ∈ variantsRest false (s.tail.flatMap Seg.parts) ([[]].map fun v => v ++ [s.head]) := by
      cases s.tail.flatMap Seg.parts with
      | nil => simp [variantsRest, hh1]
      | cons l rest => rw [variantsRest]; simp [hh1, hh2]
    rw [step, variantsRest_man]
    simp only [htail]
    constructor
    · rintro ⟨w, ⟨sel, h, rfl⟩, rfl⟩; exact ⟨sel, h, rfl⟩
    · rintro ⟨sel, h, rfl⟩; exact ⟨_, ⟨sel, h, rfl⟩, rfl⟩
  cases hlead : s.lead with
  | none =>
    have hp : s.leadParts = [] := by simp [RuleShape.leadParts, hlead]
    simp only [RuleShape.cons, hp, List.nil_append, hhead, ite_self]
    constructor
    · rintro h; exact ⟨true, h⟩
    · rintro ⟨_, h⟩; exact h
  | some cl =>
    obtain ⟨c, sep⟩ := cl
    obtain ⟨h1, h2, h3⟩ := hl c sep hlead
    have hp : s.leadParts = [c, sep] := by simp [RuleShape.leadParts, hlead]
    simp only [RuleShape.cons, hp, List.cons_append, List.nil_append]
    rw [variantsRest]
    simp only [h1, h2, h3, Bool.not_false, Bool.and_true, if_true]
    rw [variantsRest_opt]
    simp only [hhead]
    constructor
    · rintro (⟨w, ⟨sel, h, rfl⟩, rfl⟩ | ⟨sel, h, rfl⟩)
      · exact ⟨true, sel, h, by simp⟩
      · exact ⟨false, sel, h, by simp⟩
    · rintro ⟨keep, sel, h, rfl⟩
      cases keep with
      | true => exact .inl ⟨_, ⟨sel, h, rfl⟩, by simp⟩
      | false => exact .inr ⟨sel, h, by simp⟩

theorem separatorsOk_tail (sel : List Seg) (head : Constituent) (hh : head.separator = false)
    (h : ∀ seg ∈ sel, seg.body.separator = false ∧ ∀ sep, seg.sep = some sep → sep.separator = true ∧ sep.optional = false) :
    SeparatorsOk (head :: sel.flatMap Seg.parts) := by
  induction sel generalizing head with
  | nil =>
    refine ⟨by simpa using hh, by simpa using hh, ?_⟩
    intro pre a b post he
    have := congrArg List.length he
    simp at this; omega
  | cons seg sel ih =>
    obtain ⟨hb, hsep⟩ := h seg (by simp)
    obtain ⟨_, i2, i3⟩ := ih seg.body hb fun s hs => h s (List.mem_cons_of_mem _ hs)
    refine ⟨by simpa using hh, ?_, ?_⟩
    · intro c hc
      apply i2 c
      rw [← hc]
      simp [Seg.parts, List.getLast?_append, List.getLast?_cons]
    · intro pre a b post he
      rintro ⟨ha, hb'⟩
      have hsplit : head :: (seg :: sel).flatMap Seg.parts = (head :: seg.sep.toList) ++ (seg.body :: sel.flatMap Seg.parts) := by
        simp [Seg.parts]
      rw [hsplit] at he
      cases hs : seg.sep with
      | none =>
        simp only [hs, Option.toList_none, List.cons_append, List.nil_append] at he
        cases pre with
        | nil =>
          simp only [List.nil_append, List.cons.injEq] at he
          rw [← he.1, hh] at ha; simp at ha
        | cons p pre =>
          simp only [List.cons_append, List.cons.injEq] at he
          exact i3 pre a b post he.2 ⟨ha, hb'⟩
      | some sep =>
        simp only [hs, Option.toList_some, List.cons_append, List.nil_append] at he
        cases pre with
        | nil =>
          simp only [List.nil_append, List.cons.injEq] at he
          rw [← he.1, hh] at ha; simp at ha
        | cons p pre =>
          simp only [List.cons_append, List.cons.injEq] at he
          cases pre with
          | nil =>
            simp only [List.nil_append, List.cons.injEq] at he
            rw [← he.2.2.1, hb] at hb'; simp at hb'
          | cons p' pre =>
            simp only [List.cons_append, List.cons.injEq] at he
            exact i3 pre a b post he.2.2 ⟨ha, hb'⟩

theorem Selected.mem {tail sel : List Seg} (h : Selected tail sel) : ∀ s ∈ sel, s ∈ tail := by
  induction h with
  | nil => simp
  | keep s _ ih =>
    intro x hx
    rcases List.mem_cons.1 hx with rfl | hx
    · simp
    · exact List.mem_cons_of_mem _ (ih x hx)
  | drop _ _ ih => intro x hx; exact List.mem_cons_of_mem _ (ih x hx)

/-- **C36** The variants of such a rule have no doubled, leading or trailing separators. -/
theorem C36_separators_partial (s : RuleShape) (hs : s.Ok) (rule v : GRule A) (hr : rule.cons = s.cons) (hv : v ∈ ruleVariants rule) :
    SeparatorsOk v.cons := by
  have heq := (C36_mandatory rule v hv).1
  rw [heq] at hv
  obtain ⟨keep, sel, hsel, hcs⟩ := (C36_variants_partial s hs rule hr v.cons).1 hv
  have hok := separatorsOk_tail sel s.head hs.head.2 fun seg hseg => hs.tail seg (hsel.mem seg hseg)
  cases keep with
  | false => rw [hcs]; simpa using hok
  | true =>
    cases hl : s.lead with
    | none =>
      have hp : s.leadParts = [] := by simp [RuleShape.leadParts, hl]
      rw [hcs, hp]; simpa using hok
    | some cl =>
      obtain ⟨c, sep⟩ := cl
      have hp : s.leadParts = [c, sep] := by simp [RuleShape.leadParts, hl]
      have hc := hs.lead c sep hl
      rw [hcs, hp]
      obtain ⟨h1, h2, h3⟩ := hok
      refine ⟨by simpa using hc.2.1, ?_, ?_⟩
      · intro x hx
        apply h2 x
        rw [← hx]
        simp [List.getLast?_cons]
      · intro pre a b post he
        rintro ⟨ha, hb⟩
        simp only [if_true, List.cons_append, List.nil_append] at he
        cases pre with
        | nil =>
          simp only [List.nil_append, List.cons.injEq] at he
          rw [← he.1, hc.2.1] at ha; simp at ha
        | cons p pre =>
          simp only [List.cons_append, List.cons.injEq] at he
          cases pre with
          | nil =>
            simp only [List.nil_append, List.cons.injEq] at he
            rw [← he.2.2.1, hs.head.2] at hb; simp at hb
          | cons p' pre =>
            simp only [List.cons_append, List.cons.injEq] at he
            exact h3 pre a b post he.2.2 ⟨ha, hb⟩

/-- The constituents of the examples. -/
def exWord (c : Char) (optional : Bool := false) : Constituent := ⟨[c], [], .word, optional, false⟩
/-- A separator. -/
def exSep (optional : Bool := false) : Constituent := ⟨[' '], [], .word, optional, true⟩
/-- A rule with these consequents. -/
def exRuleOf (cs : List Constituent) : GRule Unit := ⟨⟨['s'], [], .relation, false, false⟩, cs, .none, 0, 0⟩

/-- **C36** is false for two leading optional constituents: `'a'? 'b'? 'c'` has variants with a leading and with a doubled separator. -/
theorem C36_leading_optionals :
    let a := exWord 'a' true; let b := exWord 'b' true; let c := exWord 'c'
    (ruleVariants (exRuleOf [a, exSep, b, exSep, c])).map GRule.cons =
      [[a, exSep, b, exSep, c], [b, exSep, c], [a, exSep, exSep, c], [exSep, c]] := by decide +kernel

/-- **C36** is false for an optional separator next to an optional constituent: `'a'~'b'?` has no variant `'a' 'b'` without the
separator. -/
theorem C36_optional_separator :
    let a := exWord 'a'; let b := exWord 'b' true
    (ruleVariants (exRuleOf [a, exSep true, b])).map GRule.cons = [[a, exSep true, b], [a]] := by decide +kernel

/-- **C36** A rule of which every constituent is optional gets a variant without consequents. -/
theorem C36_empty_variant (rule : GRule A) (h : ∀ c ∈ rule.cons, c.optional = true) : { rule with cons := [] } ∈ ruleVariants rule := by
  suffices H : ∀ (k : Nat) (cs : List Constituent), cs.length ≤ k → (∀ c ∈ cs, c.optional = true) → ∀ first,
      [] ∈ variantsRest first cs [[]] by
    exact List.mem_map.2 ⟨[], H _ _ (Nat.le_refl _) h _, rfl⟩
  intro k
  induction k with
  | zero =>
    intro cs hk _ first
    have : cs = [] := by simpa using hk
    subst this
    simp [variantsRest]
  | succ k ih =>
    intro cs hk h first
    match cs with
    | [] => simp [variantsRest]
    | [c] =>
      rw [variantsRest, if_pos (h c (by simp))]
      exact variantsRest_opt.2 (.inr (ih [] (by simp) (by simp) false))
    | c :: look :: rest =>
      simp only [List.length_cons] at hk
      have h1 := ih rest (by omega) (fun x hx => h x (List.mem_cons_of_mem _ (List.mem_cons_of_mem _ hx))) false
      have h2 := ih (look :: rest) (by simp; omega) (fun x hx => h x (List.mem_cons_of_mem _ hx)) false
      rw [variantsRest, if_pos (h c (by simp))]
      split
      · exact variantsRest_opt.2 (.inr h1)
      · split
        · exact variantsRest_opt.2 (.inr h1)
        · exact variantsRest_opt.2 (.inr h2)

example : RuleShape.Ok ⟨some (exWord 'a' true, exSep), exWord 'b', [⟨some exSep, exWord 'c' true⟩, ⟨none, exWord 'd'⟩]⟩ := by
  refine ⟨?_, ⟨rfl, rfl⟩, ?_⟩
  · intro c sep h
    simp only [Option.some.injEq, Prod.mk.injEq] at h
    obtain ⟨rfl, rfl⟩ := h
    exact ⟨rfl, rfl, rfl⟩
  · intro seg h
    simp only [List.mem_cons, List.not_mem_nil, or_false] at h
    rcases h with rfl | rfl
    · refine ⟨rfl, ?_⟩
      intro sep h
      simp only [Option.some.injEq] at h
      subst h; exact ⟨rfl, rfl⟩
    · exact ⟨rfl, by simp⟩

end Verif
