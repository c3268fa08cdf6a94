import Verif.QuantifiedRule
import Verif.QuantifiedGrammar
import Verif.Props.Composer

/-!
# Values that stand for phrases

The values that the functions of a grammar compute, after the composer has replaced the variables, are the queries of
`Verif.QuantifiedLemmas`, with slots for what is still to be filled in.
-/

namespace Verif

/-! ## Filling slots -/

mutual
theorem occursIn_fillIn {σ : Value → Option (List Value)} {s : String} : ∀ {xs : List Value}, occursIn (.str s) (fillIn σ xs) = true →
    (∃ a v, σ a = some v ∧ occursIn (.str s) v = true) ∨ (σ (.str s) = none ∧ occursIn (.str s) xs = true)
  | [], h => by simp [fillIn, occursIn] at h
  | a :: rest, h => by
    cases hσ : σ a with
    | some v =>
      simp only [fillIn, hσ, occursIn_append, Bool.or_eq_true] at h
      rcases h with h | h
      · exact .inl ⟨a, v, hσ, h⟩
      · exact (occursIn_fillIn h).imp id fun h => ⟨h.1, by simp [occursIn, h.2]⟩
    | none =>
      simp only [fillIn, hσ, occursIn, Bool.or_eq_true, decide_eq_true_eq] at h
      rcases h with (h | h) | h
      · by_cases ha : a = .str s
        · subst ha
          exact .inr ⟨hσ, by simp [occursIn]⟩
        · exact absurd h (fillOne_ne_str σ s ha)
      · exact (occursBelow_fillOne h).imp id fun h => ⟨h.1, by simp [occursIn, h.2]⟩
      · exact (occursIn_fillIn h).imp id fun h => ⟨h.1, by simp [occursIn, h.2]⟩
theorem occursBelow_fillOne {σ : Value → Option (List Value)} {s : String} : ∀ {a : Value}, occursBelow (.str s) (fillOne σ a) = true →
    (∃ a v, σ a = some v ∧ occursIn (.str s) v = true) ∨ (σ (.str s) = none ∧ occursBelow (.str s) a = true)
  | .list xs, h => by
    simp only [fillOne, occursBelow] at h ⊢
    exact occursIn_fillIn h
  | .tuple xs, h => by
    simp only [fillOne, occursBelow] at h ⊢
    exact occursIn_fillIn h
  | .none, h => by simp [fillOne, occursBelow] at h
  | .num _, h => by simp [fillOne, occursBelow] at h
  | .str _, h => by simp [fillOne, occursBelow] at h
  | .var _, h => by simp [fillOne, occursBelow] at h
  | .rvar _, h => by simp [fillOne, occursBelow] at h
  | .tmpl _ _, h => by simp [fillOne, occursBelow] at h
end

/-- The filling is one of slots: only names are filled. -/
def OnlyNames (σ : Value → Option (List Value)) : Prop := ∀ a v, σ a = some v → ∃ s, a = .str s

theorem slotValues_onlyNames (names : List String) (vs : List (List Value)) : OnlyNames (slotValues names vs) := by
  intro a v h
  induction names generalizing vs with
  | nil => simp [slotValues] at h
  | cons s names ih =>
    cases vs with
    | nil => simp [slotValues] at h
    | cons u vs =>
      simp only [slotValues] at h
      split at h
      · exact ⟨s, ‹_›⟩
      · exact ih vs h

theorem slotValues_name {names : List String} {vs : List (List Value)} {s : String} {v : List Value} (h : slotValues names vs (.str s) = some v) :
    s ∈ names := by
  induction names generalizing vs with
  | nil => simp [slotValues] at h
  | cons t names ih =>
    cases vs with
    | nil => simp [slotValues] at h
    | cons u vs =>
      simp only [slotValues] at h
      split at h
      · rename_i he
        cases he
        simp
      · exact List.mem_cons_of_mem _ (ih h)

theorem slotValues_map (f : List Value → List Value) (names : List String) (vs : List (List Value)) (a : Value) :
    slotValues names (vs.map f) a = (slotValues names vs a).map f := by
  induction names generalizing vs with
  | nil => simp [slotValues]
  | cons s names ih =>
    cases vs with
    | nil => simp [slotValues]
    | cons u vs =>
      simp only [List.map_cons, slotValues, ih]
      split <;> rfl

theorem slotValues_get {names : List String} {vs : List (List Value)} (hnd : names.Nodup) {j : Nat} {s : String} {v : List Value}
    (hs : names[j]? = some s) (hv : vs[j]? = some v) : slotValues names vs (.str s) = some v := by
  induction names generalizing vs j with
  | nil => simp at hs
  | cons t names ih =>
    cases vs with
    | nil => simp at hv
    | cons u vs =>
      cases j with
      | zero =>
        simp only [List.getElem?_cons_zero, Option.some.injEq] at hs hv
        subst hs hv
        simp [slotValues]
      | succ j =>
        simp only [List.getElem?_cons_succ] at hs hv
        have hne : s ≠ t := by
          rintro rfl
          exact (List.nodup_cons.1 hnd).1 (List.mem_of_getElem? hs)
        simp only [slotValues, Value.str.injEq, hne, if_false]
        exact ih (List.nodup_cons.1 hnd).2 hs hv

mutual
/-- Filling the fillings. -/
theorem fillIn_fillIn {σ τ : Value → Option (List Value)} (hσ : OnlyNames σ) : ∀ {xs : List Value},
    (∀ s, occursIn (.str s) xs = true → τ (.str s) = none → σ (.str s) = none) →
    fillIn σ (fillIn τ xs) = fillIn (fun a => (τ a).map (fillIn σ)) xs
  | [], _ => rfl
  | a :: rest, h => by
    have ih := fillIn_fillIn hσ (xs := rest) fun s hs => h s (by simp [occursIn, hs])
    cases hτ : τ a with
    | some v =>
      simp only [fillIn, hτ, Option.map_some, ← ih]
      rw [fillIn_append]
    | none =>
      have h1 : σ (fillOne τ a) = none := by
        cases hf : σ (fillOne τ a) with
        | none => rfl
        | some v =>
          obtain ⟨s, hs⟩ := hσ _ _ hf
          have ha : a = .str s := by
            cases a <;> simp_all [fillOne]
          subst ha
          rw [show fillOne τ (.str s) = .str s from rfl] at hf
          rw [h s (by simp [occursIn]) hτ] at hf
          cases hf
      simp only [fillIn, hτ, Option.map_none, h1, ih]
      rw [fillOne_fillOne hσ fun s hs => h s (by simp [occursIn, hs])]
theorem fillOne_fillOne {σ τ : Value → Option (List Value)} (hσ : OnlyNames σ) : ∀ {a : Value},
    (∀ s, occursBelow (.str s) a = true → τ (.str s) = none → σ (.str s) = none) →
    fillOne σ (fillOne τ a) = fillOne (fun a => (τ a).map (fillIn σ)) a
  | .list xs, h => by simp only [fillOne, fillIn_fillIn hσ (xs := xs) fun s hs => h s (by simpa [occursBelow] using hs)]
  | .tuple xs, h => by simp only [fillOne, fillIn_fillIn hσ (xs := xs) fun s hs => h s (by simpa [occursBelow] using hs)]
  | .none, _ => rfl
  | .num _, _ => rfl
  | .str _, _ => rfl
  | .var _, _ => rfl
  | .rvar _, _ => rfl
  | .tmpl _ _, _ => rfl
theorem fillIn_append {σ : Value → Option (List Value)} : ∀ {xs ys : List Value}, fillIn σ (xs ++ ys) = fillIn σ xs ++ fillIn σ ys
  | [], ys => rfl
  | a :: xs, ys => by
    simp only [List.cons_append, fillIn]
    rw [fillIn_append]
    split <;> simp
end

mutual
/-- Nothing to fill. -/
theorem fillIn_absent {σ : Value → Option (List Value)} (hσ : OnlyNames σ) : ∀ {xs : List Value},
    (∀ s, occursIn (.str s) xs = true → σ (.str s) = none) → fillIn σ xs = xs
  | [], _ => rfl
  | a :: rest, h => by
    have h1 : σ a = none := by
      cases hf : σ a with
      | none => rfl
      | some v =>
        obtain ⟨s, rfl⟩ := hσ _ _ hf
        rw [h s (by simp [occursIn])] at hf
        cases hf
    simp only [fillIn, h1, fillIn_absent hσ (xs := rest) fun s hs => h s (by simp [occursIn, hs]),
      fillOne_absent hσ (a := a) fun s hs => h s (by simp [occursIn, hs])]
theorem fillOne_absent {σ : Value → Option (List Value)} (hσ : OnlyNames σ) : ∀ {a : Value},
    (∀ s, occursBelow (.str s) a = true → σ (.str s) = none) → fillOne σ a = a
  | .list xs, h => by simp only [fillOne, fillIn_absent hσ (xs := xs) fun s hs => h s (by simpa [occursBelow] using hs)]
  | .tuple xs, h => by simp only [fillOne, fillIn_absent hσ (xs := xs) fun s hs => h s (by simpa [occursBelow] using hs)]
  | .none, _ => rfl
  | .num _, _ => rfl
  | .str _, _ => rfl
  | .var _, _ => rfl
  | .rvar _, _ => rfl
  | .tmpl _ _, _ => rfl
end

mutual
/-- Replacing variables in the fillings. -/
theorem unifyList_fillIn (d : Dict String) {σ : Value → Option (List Value)} : ∀ {xs : List Value},
    (∀ x ∈ deepVarsAll xs, d.get x = none) → unifyList d (fillIn σ xs) = fillIn (fun a => (σ a).map (unifyList d)) xs
  | [], _ => rfl
  | a :: rest, h => by
    have ih := unifyList_fillIn d (σ := σ) (xs := rest) fun x hx => h x (by simp [deepVarsAll, hx])
    cases hσ : σ a with
    | some v => simp only [fillIn, hσ, Option.map_some, ← ih, unifyList_eq_map, List.map_append]
    | none =>
      simp only [fillIn, hσ, Option.map_none, unifyList, ih]
      rw [unify_fillOne d fun x hx => h x (by simp [deepVarsAll, hx])]
theorem unify_fillOne (d : Dict String) {σ : Value → Option (List Value)} : ∀ {a : Value},
    (∀ x ∈ deepVars a, d.get x = none) → unify d (fillOne σ a) = fillOne (fun a => (σ a).map (unifyList d)) a
  | .list xs, h => by simp only [fillOne, unify, unifyList_fillIn d (xs := xs) fun x hx => h x (by simpa [deepVars] using hx)]
  | .tuple xs, h => by simp only [fillOne, unify, unifyList_fillIn d (xs := xs) fun x hx => h x (by simpa [deepVars] using hx)]
  | .none, _ => rfl
  | .num _, _ => rfl
  | .str _, _ => rfl
  | .var x, h => by simpa only [fillOne] using unify_keep d (.var x) h
  | .rvar x, h => by simpa only [fillOne] using unify_keep d (.rvar x) h
  | .tmpl as b, h => by simpa only [fillOne] using unify_keep d (.tmpl as b) h
end

mutual
/-- Variables of a filled body. -/
theorem deepVars_fillIn {σ : Value → Option (List Value)} {x : String} : ∀ {xs : List Value}, x ∈ deepVarsAll (fillIn σ xs) →
    (∃ a v, σ a = some v ∧ x ∈ deepVarsAll v) ∨ x ∈ deepVarsAll xs
  | [], h => by simp [fillIn, deepVarsAll] at h
  | a :: rest, h => by
    cases hσ : σ a with
    | some v =>
      simp only [fillIn, hσ, deepVarsAll_append, List.mem_append] at h
      rcases h with h | h
      · exact .inl ⟨a, v, hσ, h⟩
      · exact (deepVars_fillIn h).imp id fun h => by simp [deepVarsAll, h]
    | none =>
      simp only [fillIn, hσ, deepVarsAll, List.mem_append] at h
      rcases h with h | h
      · exact (deepVars_fillOne h).imp id fun h => by simp [deepVarsAll, h]
      · exact (deepVars_fillIn h).imp id fun h => by simp [deepVarsAll, h]
theorem deepVars_fillOne {σ : Value → Option (List Value)} {x : String} : ∀ {a : Value}, x ∈ deepVars (fillOne σ a) →
    (∃ a v, σ a = some v ∧ x ∈ deepVarsAll v) ∨ x ∈ deepVars a
  | .list xs, h => by
    simp only [fillOne, deepVars] at h ⊢
    exact deepVars_fillIn h
  | .tuple xs, h => by
    simp only [fillOne, deepVars] at h ⊢
    exact deepVars_fillIn h
  | .none, h => by simp [fillOne, deepVars] at h
  | .num _, h => by simp [fillOne, deepVars] at h
  | .str _, h => by simp [fillOne, deepVars] at h
  | .var _, h => .inr h
  | .rvar _, h => .inr h
  | .tmpl _ _, h => .inr h
theorem deepVarsAll_append : ∀ {xs ys : List Value}, deepVarsAll (xs ++ ys) = deepVarsAll xs ++ deepVarsAll ys
  | [], ys => rfl
  | a :: xs, ys => by
    simp only [List.cons_append, deepVarsAll, List.append_assoc]
    rw [deepVarsAll_append]
end

/-! ## The shape of parts -/

/-- The arguments are variables, numbers and texts. -/
def Basic.simple : Basic → Bool
  | .atom _ args => args.all simpleArg
  | .equals a c => simpleArg a && simpleArg c
  | .greater a c => simpleArg a && simpleArg c
  | .less a c => simpleArg a && simpleArg c
  | .assign _ v => simpleArg v

mutual
/-- Arguments are simple, all slots of consequents are filled, and only the last filling uses slots of the rule. -/
def shaped (L : Nat → Nat) : Part → Bool
  | .basic b => b.simple
  | .quant _ _ q => shapedAll L q
  | .number _ _ q n => shapedAll L q && simpleArg n
  | .all _ r q => shapedAll L r && shapedAll L q
  | .hole _ => true
  | .app i es => decide (es.length = L i) && shapedMany L es
/-- All parts are. -/
def shapedAll (L : Nat → Nat) : List Part → Bool
  | [] => true
  | p :: ps => shaped L p && shapedAll L ps
/-- All fillings are. -/
def shapedMany (L : Nat → Nat) : List (List Part) → Bool
  | [] => true
  | e :: es => shapedAll L e && (es.isEmpty || (holesAll e).isEmpty) && shapedMany L es
end

theorem givenArg_simple {K : List String} {v : Value} (h : givenArg K v = true) : simpleArg v = true := by
  cases v <;> simp_all [givenArg, simpleArg]

theorem Basic.fits_simple {ar : String → Option Nat} {K T : List String} {b : Basic} (h : b.fits ar K T = true) : b.simple = true := by
  cases b with
  | assign x v =>
    simp only [Basic.fits, Bool.and_eq_true] at h
    exact givenArg_simple h.2
  | _ => simp_all [Basic.fits, Basic.simple]

mutual
theorem shaped_of_fits {Γ : Typing} : ∀ {p : Part} {K T : List String}, fitsPart Γ p K T = true → shaped (fun i => (Γ.sig i).slots.length) p = true
  | .basic b, K, T, h => by
    simp only [fitsPart, shaped] at h ⊢
    exact Basic.fits_simple h
  | .quant k xs q, K, T, h => by
    simp only [fitsPart, Bool.and_eq_true] at h
    simp only [shaped]
    exact shapedAll_of_fits h.1.1.1
  | .number k x q n, K, T, h => by
    simp only [fitsPart, Bool.and_eq_true] at h
    simp only [shaped, Bool.and_eq_true]
    exact ⟨shapedAll_of_fits h.1.1.1.1.1.1, givenArg_simple h.2⟩
  | .all x r q, K, T, h => by
    simp only [fitsPart, Bool.and_eq_true] at h
    simp only [shaped, Bool.and_eq_true]
    exact ⟨shapedAll_of_fits h.1.1.1.1.1.1.2, shapedAll_of_fits h.1.1.1.2⟩
  | .hole j, K, T, h => rfl
  | .app i es, K, T, h => by
    simp only [fitsPart, Bool.and_eq_true] at h
    simp only [shaped, Bool.and_eq_true]
    exact ⟨h.1.2, shapedMany_of_fits h.2⟩
theorem shapedAll_of_fits {Γ : Typing} : ∀ {ps : List Part} {K T : List String}, fitsAll Γ ps K T = true →
    shapedAll (fun i => (Γ.sig i).slots.length) ps = true
  | [], K, T, h => rfl
  | p :: ps, K, T, h => by
    simp only [fitsAll, Bool.and_eq_true] at h
    simp only [shapedAll, Bool.and_eq_true]
    exact ⟨shaped_of_fits h.1, shapedAll_of_fits h.2⟩
theorem shapedMany_of_fits {Γ : Typing} {i : Nat} : ∀ {es : List (List Part)} {j : Nat} {K T : List String}, fitsMany Γ i j es K T = true →
    shapedMany (fun i => (Γ.sig i).slots.length) es = true
  | [], j, K, T, h => rfl
  | e :: es, j, K, T, h => by
    simp only [fitsMany, Bool.and_eq_true] at h
    simp only [shapedMany, Bool.and_eq_true]
    exact ⟨⟨shapedAll_of_fits h.1.1.1.1.1.1.1, h.1.1.1.2⟩, shapedMany_of_fits h.2⟩
end

/-! ## The value of a part -/

mutual
/-- The value that a part becomes, when `N i` are the slots of the `i`-th consequent and `C i` is its body. -/
def mkPart (names : List String) (N : Nat → List String) (C : Nat → List Value) (ρ : String → String) : Part → List Value
  | .basic b => [(b.form ρ).toValue]
  | .quant k _ q => [.tuple [.str k.name, .list (mkAll names N C ρ q)]]
  | .number k _ q n => [.tuple [.str k.name, .list (mkAll names N C ρ q), renArg ρ n]]
  | .all x r q => [.tuple [.str "all", .var (ρ x), .list (mkAll names N C ρ r), .list (mkAll names N C ρ q)]]
  | .hole j => [.str (names.getD j "")]
  | .app i es => fillIn (slotValues (N i) (mkMany names N C ρ es)) (C i)
/-- All parts. -/
def mkAll (names : List String) (N : Nat → List String) (C : Nat → List Value) (ρ : String → String) : List Part → List Value
  | [] => []
  | p :: ps => mkPart names N C ρ p ++ mkAll names N C ρ ps
/-- All fillings. -/
def mkMany (names : List String) (N : Nat → List String) (C : Nat → List Value) (ρ : String → String) : List (List Part) → List (List Value)
  | [] => []
  | e :: es => mkAll names N C ρ e :: mkMany names N C ρ es
end

theorem mkMany_eq (names : List String) (N : Nat → List String) (C : Nat → List Value) (ρ : String → String) (es : List (List Part)) :
    mkMany names N C ρ es = es.map (mkAll names N C ρ) := by
  induction es with
  | nil => rfl
  | cons e es ih => simp [mkMany, ih]

/-- The names `R` occur only if they are among the slots. -/
def Clean (R names : List String) (vs : List Value) : Prop := ∀ s, occursIn (.str s) vs = true → s ∈ R → s ∈ names

/-- The value is a query or a template with these slots and this body. -/
def HasBody (v : Value) (names : List String) (body : List Value) : Prop :=
  if names = [] then v = .list body else ∃ args, v = .tmpl args body ∧ NamesSlots args names

theorem occursIn_cons {s : String} {a : Value} {xs : List Value} :
    occursIn (.str s) (a :: xs) = true ↔ a = .str s ∨ occursBelow (.str s) a = true ∨ occursIn (.str s) xs = true := by
  simp [occursIn, or_assoc]

theorem occursIn_simple {ρ : String → String} {s : String} {args : List Value} (hs : args.all simpleArg = true)
    (h : occursIn (.str s) (args.map (renArg ρ)) = true) : s ∈ args.flatMap namesWithin := by
  induction args with
  | nil => simp [occursIn] at h
  | cons a args ih =>
    simp only [List.all_cons, Bool.and_eq_true] at hs
    rw [List.map_cons, occursIn_cons] at h
    simp only [List.flatMap_cons, List.mem_append]
    rcases h with h | h | h
    · cases a <;> simp_all [renArg, namesWithin]
    · cases a <;> simp_all [renArg, occursBelow, simpleArg]
    · exact .inr (ih hs.2 h)

theorem occursIn_basic {ρ : String → String} {s : String} {b : Basic} (hs : b.simple = true) (h : occursIn (.str s) [(b.form ρ).toValue] = true) :
    s ∈ b.texts := by
  cases b with
  | atom p args =>
    simp only [Basic.form, Form.toValue, occursIn, occursBelow, reduceCtorEq, decide_false, Bool.false_or, Bool.or_false, Bool.or_eq_true,
      decide_eq_true_eq, Value.str.injEq] at h
    simp only [Basic.texts, List.mem_cons]
    rcases h with h | h
    · exact .inl h.symm
    · exact .inr (occursIn_simple (by simpa [Basic.simple] using hs) h)
  | assign x v =>
    simp only [Basic.form, Form.toValue, occursIn, occursBelow, reduceCtorEq, decide_false, Bool.false_or, Bool.or_false, Bool.or_eq_true,
      decide_eq_true_eq, Value.str.injEq] at h
    simp only [Basic.texts, List.mem_cons]
    rcases h with h | h
    · exact .inl h.symm
    · refine .inr ?_
      have := occursIn_simple (ρ := ρ) (args := [v]) (s := s) (by simpa [Basic.simple] using hs) (by simpa [occursIn] using h)
      simpa using this
  | equals a c =>
    simp only [Basic.form, Form.toValue, occursIn, occursBelow, reduceCtorEq, decide_false, Bool.false_or, Bool.or_false, Bool.or_eq_true,
      decide_eq_true_eq, Value.str.injEq] at h
    simp only [Basic.texts, List.mem_cons]
    rcases h with h | h
    · exact .inl h.symm
    · refine .inr ?_
      have := occursIn_simple (ρ := ρ) (args := [a, c]) (s := s) (by simpa [Basic.simple] using hs) (by simpa [occursIn] using h)
      simpa using this
  | greater a c =>
    simp only [Basic.form, Form.toValue, occursIn, occursBelow, reduceCtorEq, decide_false, Bool.false_or, Bool.or_false, Bool.or_eq_true,
      decide_eq_true_eq, Value.str.injEq] at h
    simp only [Basic.texts, List.mem_cons]
    rcases h with h | h
    · exact .inl h.symm
    · refine .inr ?_
      have := occursIn_simple (ρ := ρ) (args := [a, c]) (s := s) (by simpa [Basic.simple] using hs) (by simpa [occursIn] using h)
      simpa using this
  | less a c =>
    simp only [Basic.form, Form.toValue, occursIn, occursBelow, reduceCtorEq, decide_false, Bool.false_or, Bool.or_false, Bool.or_eq_true,
      decide_eq_true_eq, Value.str.injEq] at h
    simp only [Basic.texts, List.mem_cons]
    rcases h with h | h
    · exact .inl h.symm
    · refine .inr ?_
      have := occursIn_simple (ρ := ρ) (args := [a, c]) (s := s) (by simpa [Basic.simple] using hs) (by simpa [occursIn] using h)
      simpa using this

section
variable {R names : List String} {N : Nat → List String} {C : Nat → List Value} {ρ : String → String}

mutual
/-- Reserved names in the value come from the slots of the rule. -/
theorem mk_slots {s : String} (hR : s ∈ R) : ∀ (p : Part), shaped (fun i => (N i).length) p = true → (∀ i ∈ kidsOf p, Clean R (N i) (C i)) →
    (∀ t ∈ textsIn p, t ∉ R) → occursIn (.str s) (mkPart names N C ρ p) = true → ∃ j ∈ holesOf p, s = names.getD j ""
  | .basic b, hsh, _, ht, h => by
    simp only [shaped] at hsh
    simp only [mkPart] at h
    exact absurd hR (ht s (by simpa [textsIn] using occursIn_basic hsh h))
  | .quant k xs q, hsh, hk, ht, h => by
    simp only [shaped] at hsh
    simp only [mkPart, occursIn, occursBelow, reduceCtorEq, decide_false, Bool.false_or, Bool.or_false, Bool.or_eq_true, decide_eq_true_eq,
      Value.str.injEq] at h
    rcases h with h | h
    · exact absurd hR (ht s (by simp [textsIn, h]))
    · exact mkAll_slots hR q hsh hk (fun t h => ht t (by simp [textsIn, h])) h
  | .number k x q n, hsh, hk, ht, h => by
    simp only [shaped, Bool.and_eq_true] at hsh
    simp only [mkPart, occursIn, occursBelow, reduceCtorEq, decide_false, Bool.false_or, Bool.or_false, Bool.or_eq_true, decide_eq_true_eq,
      Value.str.injEq] at h
    rcases h with h | h | h
    · exact absurd hR (ht s (by simp [textsIn, h]))
    · exact mkAll_slots hR q hsh.1 hk (fun t h => ht t (by simp [textsIn, h])) h
    · have := occursIn_simple (ρ := ρ) (args := [n]) (s := s) (by simpa using hsh.2) (by simpa [occursIn] using h)
      exact absurd hR (ht s (by simp only [textsIn]; simp at this; simp [this]))
  | .all x r q, hsh, hk, ht, h => by
    simp only [shaped, Bool.and_eq_true] at hsh
    simp only [mkPart, occursIn, occursBelow, reduceCtorEq, decide_false, Bool.false_or, Bool.or_false, Bool.or_eq_true, decide_eq_true_eq,
      Value.str.injEq] at h
    rcases h with h | h | h
    · exact absurd hR (ht s (by simp [textsIn, h]))
    · obtain ⟨j, h1, h2⟩ := mkAll_slots hR r hsh.1 (fun i hi => hk i (by simp [kidsOf, hi])) (fun t h => ht t (by simp [textsIn, h])) h
      exact ⟨j, by simp [holesOf, h1], h2⟩
    · obtain ⟨j, h1, h2⟩ := mkAll_slots hR q hsh.2 (fun i hi => hk i (by simp [kidsOf, hi])) (fun t h => ht t (by simp [textsIn, h])) h
      exact ⟨j, by simp [holesOf, h1], h2⟩
  | .hole j, _, _, _, h => by
    refine ⟨j, by simp [holesOf], ?_⟩
    simp only [mkPart, occursBelow, occursIn, Value.str.injEq, Bool.or_false, decide_eq_true_eq] at h
    exact h.symm
  | .app i es, hsh, hk, ht, h => by
    simp only [shaped, Bool.and_eq_true, decide_eq_true_eq] at hsh
    simp only [mkPart] at h
    rcases occursIn_fillIn h with ⟨a, v, hv, ho⟩ | ⟨h1, h2⟩
    · exact mkMany_slots hR es hsh.2 (fun i hi => hk i (by simp [kidsOf, hi])) (fun t h => ht t (by simpa [textsIn] using h)) v (slotValues_mem hv) ho
    · have h3 := hk i (by simp [kidsOf]) s h2 hR
      have := slotValues_isSome (vs := mkMany names N C ρ es) (by simp [mkMany_eq, hsh.1]) h3
      simp [h1] at this
theorem mkAll_slots {s : String} (hR : s ∈ R) : ∀ (ps : List Part), shapedAll (fun i => (N i).length) ps = true → (∀ i ∈ kidsAll ps, Clean R (N i) (C i)) →
    (∀ t ∈ textsAll ps, t ∉ R) → occursIn (.str s) (mkAll names N C ρ ps) = true → ∃ j ∈ holesAll ps, s = names.getD j ""
  | [], _, _, _, h => by simp [mkAll, occursIn] at h
  | p :: ps, hsh, hk, ht, h => by
    simp only [shapedAll, Bool.and_eq_true] at hsh
    simp only [mkAll, occursIn_append, Bool.or_eq_true] at h
    rcases h with h | h
    · obtain ⟨j, h1, h2⟩ := mk_slots hR p hsh.1 (fun i hi => hk i (by simp [kidsAll, hi])) (fun t h => ht t (by simp [textsAll, h])) h
      exact ⟨j, by simp [holesAll, h1], h2⟩
    · obtain ⟨j, h1, h2⟩ := mkAll_slots hR ps hsh.2 (fun i hi => hk i (by simp [kidsAll, hi])) (fun t h => ht t (by simp [textsAll, h])) h
      exact ⟨j, by simp [holesAll, h1], h2⟩
theorem mkMany_slots {s : String} (hR : s ∈ R) : ∀ (es : List (List Part)), shapedMany (fun i => (N i).length) es = true →
    (∀ i ∈ kidsMany es, Clean R (N i) (C i)) → (∀ t ∈ textsMany es, t ∉ R) → ∀ v ∈ mkMany names N C ρ es, occursIn (.str s) v = true →
    ∃ j ∈ holesMany es, s = names.getD j ""
  | [], _, _, _, v, hv, _ => by simp [mkMany] at hv
  | e :: es, hsh, hk, ht, v, hv, h => by
    simp only [shapedMany, Bool.and_eq_true] at hsh
    simp only [mkMany, List.mem_cons] at hv
    rcases hv with hv | hv
    · rw [hv] at h
      obtain ⟨j, h1, h2⟩ := mkAll_slots hR e hsh.1.1 (fun i hi => hk i (by simp [kidsMany, hi])) (fun t h => ht t (by simp [textsMany, h])) h
      exact ⟨j, by simp [holesMany, h1], h2⟩
    · obtain ⟨j, h1, h2⟩ := mkMany_slots hR es hsh.2 (fun i hi => hk i (by simp [kidsMany, hi])) (fun t h => ht t (by simp [textsMany, h])) v hv h
      exact ⟨j, by simp [holesMany, h1], h2⟩
end

/-- The values for the slots of a consequent do not contain names of later slots. -/
theorem mkMany_noLater (es : List (List Part)) (hsh : shapedMany (fun i => (N i).length) es = true) (hk : ∀ i ∈ kidsMany es, Clean R (N i) (C i))
    (ht : ∀ t ∈ textsMany es, t ∉ R) : ∀ (ns : List String), ns.length = es.length → (∀ s ∈ ns, s ∈ R) → NoLater ns (mkMany names N C ρ es) := by
  induction es with
  | nil => intro ns _ _; cases ns <;> trivial
  | cons e es ih =>
    intro ns hl hR
    cases ns with
    | nil => trivial
    | cons n ns =>
      simp only [shapedMany, Bool.and_eq_true, Bool.or_eq_true] at hsh
      refine ⟨fun s hs => ?_, ih hsh.2 (fun i hi => hk i (by simp [kidsMany, hi])) (fun t h => ht t (by simp [textsMany, h])) ns (by simpa using hl)
        fun s hs => hR s (by simp [hs])⟩
      cases ho : occursIn (.str s) (mkAll names N C ρ e) with
      | false => rfl
      | true =>
        obtain ⟨j, hj, _⟩ := mkAll_slots (hR s (by simp [hs])) e hsh.1.1 (fun i hi => hk i (by simp [kidsMany, hi]))
          (fun t h => ht t (by simp [textsMany, h])) ho
        rcases hsh.1.2 with h | h
        · simp only [List.isEmpty_iff] at h
          subst h
          simp only [List.length_cons, List.length_nil, Nat.add_eq_right, List.length_eq_zero_iff] at hl
          subst hl
          simp at hs
        · simp only [List.isEmpty_iff] at h
          simp [h] at hj

theorem written_form (b : Basic) : (b.form id).toValue = b.written := by
  have h : ∀ v : Value, renArg id v = v := fun v => by cases v <;> rfl
  have hm : ∀ l : List Value, l.map (renArg id) = l := fun l => by
    rw [show (renArg id) = id from funext h]
    simp
  cases b <;> simp [Basic.form, Form.toValue, Basic.written, h, hm]

theorem renArg_id (v : Value) : renArg id v = v := by cases v <;> rfl

mutual
/-- The expression evaluates to the value. -/
theorem eval_part {V : Nat → Value} (hN : ∀ i, ∀ s ∈ N i, s ∈ R) : ∀ (p : Part), shaped (fun i => (N i).length) p = true →
    (∀ i ∈ kidsOf p, Clean R (N i) (C i) ∧ HasBody (V i) (N i) (C i)) → (∀ t ∈ textsIn p, t ∉ R) →
    evalPart names V p = .ok (mkPart names N C id p)
  | .basic b, _, _, _ => by simp only [evalPart, mkPart, written_form]
  | .quant k xs q, hsh, hk, ht => by
    simp only [evalPart, mkPart, eval_all hN q hsh hk fun t h => ht t (by simp [textsIn, h])]
  | .number k x q n, hsh, hk, ht => by
    simp only [shaped, Bool.and_eq_true] at hsh
    simp only [evalPart, mkPart, eval_all hN q hsh.1 hk fun t h => ht t (by simp [textsIn, h]), renArg_id]
  | .all x r q, hsh, hk, ht => by
    simp only [shaped, Bool.and_eq_true] at hsh
    simp only [evalPart, mkPart, eval_all hN r hsh.1 (fun i hi => hk i (by simp [kidsOf, hi])) (fun t h => ht t (by simp [textsIn, h])),
      eval_all hN q hsh.2 (fun i hi => hk i (by simp [kidsOf, hi])) (fun t h => ht t (by simp [textsIn, h])), id]
  | .hole j, _, _, _ => rfl
  | .app i es, hsh, hk, ht => by
    simp only [shaped, Bool.and_eq_true, decide_eq_true_eq] at hsh
    have ih := eval_many hN es hsh.2 (fun i hi => hk i (by simp [kidsOf, hi])) (fun t h => ht t (by simpa [textsIn] using h))
    simp only [evalPart, mkPart, ih]
    have hb := (hk i (by simp [kidsOf])).2
    cases hes : es with
    | nil =>
      have hn : N i = [] := by
        rw [hes] at hsh
        exact List.length_eq_zero_iff.1 hsh.1.symm
      simp only [HasBody, hn, if_true] at hb
      simp only [List.isEmpty_nil, if_true, hb, atomsOf, mkMany, hn]
      rw [show slotValues [] [] = fun _ => none from rfl, fillIn_none]
    | cons e es' =>
      have hn : N i ≠ [] := by
        rintro hn
        rw [hes, hn] at hsh
        simp at hsh
      simp only [HasBody, hn, if_false] at hb
      obtain ⟨args, hv, hna⟩ := hb
      rw [← hes, hv]
      have := C44_fewer_values (N i) hna (C i) (mkMany names N C id es) (by simp [mkMany_eq, hsh.1])
        (mkMany_noLater es hsh.2 (fun i hi => (hk i (by simp [kidsOf, hi])).1) (fun t h => ht t (by simpa [textsIn] using h)) (N i) hsh.1.symm (hN i))
      rw [this]
      simp [hes]
theorem eval_all {V : Nat → Value} (hN : ∀ i, ∀ s ∈ N i, s ∈ R) : ∀ (ps : List Part), shapedAll (fun i => (N i).length) ps = true →
    (∀ i ∈ kidsAll ps, Clean R (N i) (C i) ∧ HasBody (V i) (N i) (C i)) → (∀ t ∈ textsAll ps, t ∉ R) →
    evalAll names V ps = .ok (mkAll names N C id ps)
  | [], _, _, _ => rfl
  | p :: ps, hsh, hk, ht => by
    simp only [shapedAll, Bool.and_eq_true] at hsh
    simp only [evalAll, mkAll, eval_part hN p hsh.1 (fun i hi => hk i (by simp [kidsAll, hi])) (fun t h => ht t (by simp [textsAll, h])),
      eval_all hN ps hsh.2 (fun i hi => hk i (by simp [kidsAll, hi])) (fun t h => ht t (by simp [textsAll, h]))]
theorem eval_many {V : Nat → Value} (hN : ∀ i, ∀ s ∈ N i, s ∈ R) : ∀ (es : List (List Part)), shapedMany (fun i => (N i).length) es = true →
    (∀ i ∈ kidsMany es, Clean R (N i) (C i) ∧ HasBody (V i) (N i) (C i)) → (∀ t ∈ textsMany es, t ∉ R) →
    evalMany names V es = .ok (mkMany names N C id es)
  | [], _, _, _ => rfl
  | e :: es, hsh, hk, ht => by
    simp only [shapedMany, Bool.and_eq_true] at hsh
    simp only [evalMany, mkMany, eval_all hN e hsh.1.1 (fun i hi => hk i (by simp [kidsMany, hi])) (fun t h => ht t (by simp [textsMany, h])),
      eval_many hN es hsh.2 (fun i hi => hk i (by simp [kidsMany, hi])) (fun t h => ht t (by simp [textsMany, h]))]
end

/-! ## Replacing the variables -/

theorem unify_arg (d : Dict String) (hρ : ∀ x, ρ x = (d.get x).getD x) {v : Value} (h : simpleArg v = true) : unify d v = renArg ρ v := by
  cases v with
  | var x =>
    simp only [unify, renArg, hρ]
    cases d.get x <;> rfl
  | num => rfl
  | str => rfl
  | none => simp [simpleArg] at h
  | rvar => simp [simpleArg] at h
  | list => simp [simpleArg] at h
  | tuple => simp [simpleArg] at h
  | tmpl => simp [simpleArg] at h

theorem unify_args (d : Dict String) (hρ : ∀ x, ρ x = (d.get x).getD x) {args : List Value} (h : args.all simpleArg = true) :
    unifyList d args = args.map (renArg ρ) := by
  rw [unifyList_eq_map]
  refine List.map_congr_left fun a ha => unify_arg d hρ ?_
  rw [List.all_eq_true] at h
  exact h a ha

theorem unify_basic (d : Dict String) (hρ : ∀ x, ρ x = (d.get x).getD x) {b : Basic} (h : b.simple = true) :
    unify d b.written = (b.form ρ).toValue := by
  have hv : ∀ x, unify d (.var x) = .var (ρ x) := fun x => unify_arg d hρ (v := .var x) rfl
  cases b with
  | atom p args => simp only [Basic.written, Basic.form, Form.toValue, unify, unifyList, unify_args d hρ h]
  | equals a c =>
    simp only [Basic.simple, Bool.and_eq_true] at h
    simp only [Basic.written, Basic.form, Form.toValue, unify, unifyList, unify_arg d hρ h.1, unify_arg d hρ h.2]
  | greater a c =>
    simp only [Basic.simple, Bool.and_eq_true] at h
    simp only [Basic.written, Basic.form, Form.toValue, unify, unifyList, unify_arg d hρ h.1, unify_arg d hρ h.2]
  | less a c =>
    simp only [Basic.simple, Bool.and_eq_true] at h
    simp only [Basic.written, Basic.form, Form.toValue, unify, unifyList, unify_arg d hρ h.1, unify_arg d hρ h.2]
  | assign x v =>
    simp only [Basic.simple] at h
    have hx : unifyList d [Value.var x, v] = [Value.var (ρ x), renArg ρ v] := by
      simp only [unifyList, hv, unify_arg d hρ h]
    simp only [Basic.written, Basic.form, Form.toValue]
    rw [unify, unifyList, hx]
    rfl

mutual
/-- The composer replaces the variables of the rule and leaves those of the consequents alone. -/
theorem unify_part (d : Dict String) (hρ : ∀ x, ρ x = (d.get x).getD x) : ∀ (p : Part), shaped (fun i => (N i).length) p = true →
    (∀ i ∈ kidsOf p, ∀ x ∈ deepVarsAll (C i), d.get x = none) → unifyList d (mkPart names N C id p) = mkPart names N C ρ p
  | .basic b, hsh, _ => by
    simp only [shaped] at hsh
    simp only [mkPart, unifyList, written_form, unify_basic d hρ hsh]
  | .quant k xs q, hsh, hk => by
    simp only [shaped] at hsh
    simp only [mkPart, unifyList, unify, unify_all d hρ q hsh hk]
  | .number k x q n, hsh, hk => by
    simp only [shaped, Bool.and_eq_true] at hsh
    simp only [mkPart, renArg_id]
    simp only [unifyList, unify, unify_all d hρ q hsh.1 hk, unify_arg d hρ hsh.2]
  | .all x r q, hsh, hk => by
    simp only [shaped, Bool.and_eq_true] at hsh
    have hx : ∀ y, unify d (.var y) = .var (ρ y) := fun y => unify_arg d hρ (v := .var y) rfl
    have e1 := unify_all d hρ r hsh.1 fun i hi => hk i (by simp [kidsOf, hi])
    have e2 := unify_all d hρ q hsh.2 fun i hi => hk i (by simp [kidsOf, hi])
    simp only [mkPart, id]
    rw [unifyList, unifyList, unify, unifyList, unifyList, unifyList, unifyList, unifyList, unify, unify, e1, e2, hx]
    rfl
  | .hole j, _, _ => rfl
  | .app i es, hsh, hk => by
    simp only [shaped, Bool.and_eq_true, decide_eq_true_eq] at hsh
    simp only [mkPart]
    rw [unifyList_fillIn d (hk i (by simp [kidsOf]))]
    have ih := unify_many d hρ es hsh.2 fun i hi => hk i (by simp [kidsOf, hi])
    rw [← ih]
    congr 1
    funext a
    rw [slotValues_map]
theorem unify_all (d : Dict String) (hρ : ∀ x, ρ x = (d.get x).getD x) : ∀ (ps : List Part), shapedAll (fun i => (N i).length) ps = true →
    (∀ i ∈ kidsAll ps, ∀ x ∈ deepVarsAll (C i), d.get x = none) → unifyList d (mkAll names N C id ps) = mkAll names N C ρ ps
  | [], _, _ => rfl
  | p :: ps, hsh, hk => by
    simp only [shapedAll, Bool.and_eq_true] at hsh
    have e1 := unify_part d hρ p hsh.1 fun i hi => hk i (by simp [kidsAll, hi])
    have e2 := unify_all d hρ ps hsh.2 fun i hi => hk i (by simp [kidsAll, hi])
    simp only [mkAll, ← e1, ← e2, unifyList_eq_map, List.map_append]
theorem unify_many (d : Dict String) (hρ : ∀ x, ρ x = (d.get x).getD x) : ∀ (es : List (List Part)), shapedMany (fun i => (N i).length) es = true →
    (∀ i ∈ kidsMany es, ∀ x ∈ deepVarsAll (C i), d.get x = none) → (mkMany names N C id es).map (unifyList d) = mkMany names N C ρ es
  | [], _, _ => rfl
  | e :: es, hsh, hk => by
    simp only [shapedMany, Bool.and_eq_true] at hsh
    simp only [mkMany, List.map_cons, unify_all d hρ e hsh.1.1 (fun i hi => hk i (by simp [kidsMany, hi])),
      unify_many d hρ es hsh.2 (fun i hi => hk i (by simp [kidsMany, hi]))]
end

/-! ## Variables of the value -/

theorem deepVars_args {args : List Value} (h : args.all simpleArg = true) {x : String} (hx : x ∈ deepVarsAll (args.map (renArg ρ))) :
    ∃ y ∈ argVars args, x = ρ y := by
  induction args with
  | nil => simp [deepVarsAll] at hx
  | cons a args ih =>
    simp only [List.all_cons, Bool.and_eq_true] at h
    simp only [List.map_cons, deepVarsAll, List.mem_append] at hx
    rcases hx with hx | hx
    · cases a with
      | var y =>
        simp only [renArg, deepVars, List.mem_singleton] at hx
        exact ⟨y, by simp [argVars], hx⟩
      | num => simp [renArg, deepVars] at hx
      | str => simp [renArg, deepVars] at hx
      | none => simp [simpleArg] at h
      | rvar => simp [simpleArg] at h
      | list => simp [simpleArg] at h
      | tuple => simp [simpleArg] at h
      | tmpl => simp [simpleArg] at h
    · obtain ⟨y, h1, h2⟩ := ih h.2 hx
      refine ⟨y, ?_, h2⟩
      rw [show a :: args = [a] ++ args from rfl, argVars_append]
      simp [h1]

theorem deepVars_basic {b : Basic} (h : b.simple = true) {x : String} (hx : x ∈ deepVarsAll [(b.form ρ).toValue]) : ∃ y ∈ b.vars, x = ρ y := by
  cases b with
  | atom p args =>
    simp only [Basic.form, Form.toValue, deepVarsAll, deepVars, List.append_nil, List.nil_append] at hx
    exact deepVars_args h hx
  | assign z v =>
    simp only [Basic.form, Form.toValue, deepVarsAll, deepVars, List.append_nil, List.nil_append, List.singleton_append, List.mem_cons] at hx
    rcases hx with hx | hx
    · exact ⟨z, by simp [Basic.vars], hx⟩
    · obtain ⟨y, h1, h2⟩ := deepVars_args (ρ := ρ) (args := [v]) (by simpa [Basic.simple] using h) (x := x) (by simpa [deepVarsAll] using hx)
      exact ⟨y, by simp [Basic.vars, h1], h2⟩
  | equals a c =>
    simp only [Basic.form, Form.toValue, deepVarsAll, deepVars, List.append_nil, List.nil_append] at hx
    exact deepVars_args (ρ := ρ) (args := [a, c]) (by simpa [Basic.simple] using h) (x := x) (by simpa [deepVarsAll] using hx)
  | greater a c =>
    simp only [Basic.form, Form.toValue, deepVarsAll, deepVars, List.append_nil, List.nil_append] at hx
    exact deepVars_args (ρ := ρ) (args := [a, c]) (by simpa [Basic.simple] using h) (x := x) (by simpa [deepVarsAll] using hx)
  | less a c =>
    simp only [Basic.form, Form.toValue, deepVarsAll, deepVars, List.append_nil, List.nil_append] at hx
    exact deepVars_args (ρ := ρ) (args := [a, c]) (by simpa [Basic.simple] using h) (x := x) (by simpa [deepVarsAll] using hx)

mutual
theorem mk_vars {x : String} {args : Nat → List String} {ante : List String} : ∀ (p : Part), shaped (fun i => (N i).length) p = true →
    x ∈ deepVarsAll (mkPart names N C ρ p) → (∃ y ∈ everyVar args ante p, x = ρ y) ∨ ∃ i ∈ kidsOf p, x ∈ deepVarsAll (C i)
  | .basic b, hsh, h => by
    simp only [shaped] at hsh
    simp only [mkPart] at h
    exact .inl (deepVars_basic hsh h)
  | .quant k xs q, hsh, h => by
    simp only [shaped] at hsh
    simp only [mkPart, deepVarsAll, deepVars, List.append_nil, List.nil_append] at h
    rcases mkAll_vars (args := args) (ante := ante) q hsh h with ⟨y, h1, h2⟩ | h
    · exact .inl ⟨y, by simp [everyVar, h1], h2⟩
    · exact .inr h
  | .number k z q n, hsh, h => by
    simp only [shaped, Bool.and_eq_true] at hsh
    simp only [mkPart, deepVarsAll, deepVars, List.append_nil, List.nil_append, List.mem_append] at h
    rcases h with h | h
    · rcases mkAll_vars (args := args) (ante := ante) q hsh.1 h with ⟨y, h1, h2⟩ | h
      · exact .inl ⟨y, by simp [everyVar, h1], h2⟩
      · exact .inr h
    · obtain ⟨y, h1, h2⟩ := deepVars_args (ρ := ρ) (args := [n]) (by simpa using hsh.2) (x := x) (by simpa [deepVarsAll] using h)
      exact .inl ⟨y, by simp [everyVar, h1], h2⟩
  | .all z r q, hsh, h => by
    simp only [shaped, Bool.and_eq_true] at hsh
    simp only [mkPart, deepVarsAll, deepVars, List.append_nil, List.nil_append, List.mem_append, List.mem_cons, List.not_mem_nil, or_false] at h
    rcases h with h | h | h
    · exact .inl ⟨z, by simp [everyVar], h⟩
    · rcases mkAll_vars (args := args) (ante := ante) r hsh.1 h with ⟨y, h1, h2⟩ | ⟨i, h1, h2⟩
      · exact .inl ⟨y, by simp [everyVar, h1], h2⟩
      · exact .inr ⟨i, by simp [kidsOf, h1], h2⟩
    · rcases mkAll_vars (args := args) (ante := ante) q hsh.2 h with ⟨y, h1, h2⟩ | ⟨i, h1, h2⟩
      · exact .inl ⟨y, by simp [everyVar, h1], h2⟩
      · exact .inr ⟨i, by simp [kidsOf, h1], h2⟩
  | .hole j, _, h => by simp [mkPart, deepVarsAll, deepVars] at h
  | .app i es, hsh, h => by
    simp only [shaped, Bool.and_eq_true, decide_eq_true_eq] at hsh
    simp only [mkPart] at h
    rcases deepVars_fillIn h with ⟨a, v, hv, ho⟩ | h
    · rcases mkMany_vars (args := args) (ante := ante) es hsh.2 v (slotValues_mem hv) ho with ⟨y, h1, h2⟩ | ⟨i', h1, h2⟩
      · exact .inl ⟨y, by simp [everyVar, h1], h2⟩
      · exact .inr ⟨i', by simp [kidsOf, h1], h2⟩
    · exact .inr ⟨i, by simp [kidsOf], h⟩
theorem mkAll_vars {x : String} {args : Nat → List String} {ante : List String} : ∀ (ps : List Part), shapedAll (fun i => (N i).length) ps = true →
    x ∈ deepVarsAll (mkAll names N C ρ ps) → (∃ y ∈ everyVarAll args ante ps, x = ρ y) ∨ ∃ i ∈ kidsAll ps, x ∈ deepVarsAll (C i)
  | [], _, h => by simp [mkAll, deepVarsAll] at h
  | p :: ps, hsh, h => by
    simp only [shapedAll, Bool.and_eq_true] at hsh
    simp only [mkAll, deepVarsAll_append, List.mem_append] at h
    rcases h with h | h
    · rcases mk_vars (args := args) (ante := ante) p hsh.1 h with ⟨y, h1, h2⟩ | ⟨i, h1, h2⟩
      · exact .inl ⟨y, by simp [everyVarAll, h1], h2⟩
      · exact .inr ⟨i, by simp [kidsAll, h1], h2⟩
    · rcases mkAll_vars (args := args) (ante := ante) ps hsh.2 h with ⟨y, h1, h2⟩ | ⟨i, h1, h2⟩
      · exact .inl ⟨y, by simp [everyVarAll, h1], h2⟩
      · exact .inr ⟨i, by simp [kidsAll, h1], h2⟩
theorem mkMany_vars {x : String} {args : Nat → List String} {ante : List String} : ∀ (es : List (List Part)),
    shapedMany (fun i => (N i).length) es = true → ∀ v ∈ mkMany names N C ρ es, x ∈ deepVarsAll v →
    (∃ y ∈ everyVarMany args ante es, x = ρ y) ∨ ∃ i ∈ kidsMany es, x ∈ deepVarsAll (C i)
  | [], _, v, hv, _ => by simp [mkMany] at hv
  | e :: es, hsh, v, hv, h => by
    simp only [shapedMany, Bool.and_eq_true] at hsh
    simp only [mkMany, List.mem_cons] at hv
    rcases hv with hv | hv
    · rw [hv] at h
      rcases mkAll_vars (args := args) (ante := ante) e hsh.1.1 h with ⟨y, h1, h2⟩ | ⟨i, h1, h2⟩
      · exact .inl ⟨y, by simp [everyVarMany, h1], h2⟩
      · exact .inr ⟨i, by simp [kidsMany, h1], h2⟩
    · rcases mkMany_vars (args := args) (ante := ante) es hsh.2 v hv h with ⟨y, h1, h2⟩ | ⟨i, h1, h2⟩
      · exact .inl ⟨y, by simp [everyVarMany, h1], h2⟩
      · exact .inr ⟨i, by simp [kidsMany, h1], h2⟩
end

/-! ## The value is the query -/

/-- The queries in the first `n` slots, as values. -/
def slotForms (n : Nat) (H : Nat → List Form) : List (List Value) := (List.range n).map fun j => formValues (H j)

/-- The body, with queries in its slots, is the query that `G` makes of these. -/
def BodyOf (names : List String) (body : List Value) (G : (Nat → List Form) → List Form) : Prop :=
  ∀ H, fillIn (slotValues names (slotForms names.length H)) body = formValues (G H)

theorem formValues_append (q q' : List Form) : formValues (q ++ q') = formValues q ++ formValues q' := by
  induction q with
  | nil => rfl
  | cons f q ih => simp [formValues, ih]

theorem fillIn_one {σ : Value → Option (List Value)} (hσ : OnlyNames σ) (xs : List Value) : fillIn σ [.tuple xs] = [.tuple (fillIn σ xs)] := by
  have h : σ (.tuple xs) = none := by
    cases h : σ (.tuple xs) with
    | none => rfl
    | some v =>
      obtain ⟨s, hs⟩ := hσ _ _ h
      cases hs
  simp [fillIn, h, fillOne]

theorem fillIn_list {σ : Value → Option (List Value)} (hσ : OnlyNames σ) (xs rest : List Value) :
    fillIn σ (.list xs :: rest) = .list (fillIn σ xs) :: fillIn σ rest := by
  have h : σ (.list xs) = none := by
    cases h : σ (.list xs) with
    | none => rfl
    | some v =>
      obtain ⟨s, hs⟩ := hσ _ _ h
      cases hs
  simp [fillIn, h, fillOne]

theorem fillIn_str {σ : Value → Option (List Value)} {s : String} (h : σ (.str s) = none) (rest : List Value) :
    fillIn σ (.str s :: rest) = .str s :: fillIn σ rest := by
  simp [fillIn, h, fillOne]

theorem fillIn_var {σ : Value → Option (List Value)} (hσ : OnlyNames σ) (x : String) (rest : List Value) :
    fillIn σ (.var x :: rest) = .var x :: fillIn σ rest := by
  have h : σ (.var x) = none := by
    cases h : σ (.var x) with
    | none => rfl
    | some v =>
      obtain ⟨s, hs⟩ := hσ _ _ h
      cases hs
  simp [fillIn, h, fillOne]

theorem Quant.form_value (k : Quant) (q : List Form) : (k.form q).toValue = .tuple [.str k.name, .list (formValues q)] := by
  cases k <;> rfl

theorem Numeral.form_value (k : Numeral) (q : List Form) (n : Value) : (k.form q n).toValue = .tuple [.str k.name, .list (formValues q), n] := by
  cases k <;> rfl

/-- What is known about the slots of the rule. -/
structure SlotsOk (R names : List String) (N : Nat → List String) (C : Nat → List Value) (G : Nat → (Nat → List Form) → List Form)
    (kids : List Nat) : Prop where
  nodup : names.Nodup
  reserved : ∀ s ∈ names, s ∈ R
  clean : ∀ i ∈ kids, Clean R (N i) (C i)
  body : ∀ i ∈ kids, BodyOf (N i) (C i) (G i)

theorem SlotsOk.sub {G : Nat → (Nat → List Form) → List Form} {kids kids' : List Nat} (h : SlotsOk R names N C G kids) (hs : ∀ i ∈ kids', i ∈ kids) :
    SlotsOk R names N C G kids' :=
  ⟨h.nodup, h.reserved, fun i hi => h.clean i (hs i hi), fun i hi => h.body i (hs i hi)⟩

theorem SlotsOk.none_of {G : Nat → (Nat → List Form) → List Form} {kids : List Nat} (h : SlotsOk R names N C G kids) {vs : List (List Value)}
    {s : String} (hs : s ∉ R) : slotValues names vs (.str s) = none := by
  cases hv : slotValues names vs (.str s) with
  | none => rfl
  | some v => exact absurd (h.reserved s (slotValues_name hv)) hs

mutual
theorem mk_form {G : Nat → (Nat → List Form) → List Form} (H : Nat → List Form) : ∀ (p : Part), SlotsOk R names N C G (kidsOf p) →
    shaped (fun i => (N i).length) p = true → (∀ t ∈ textsIn p, t ∉ R) → (∀ j ∈ holesOf p, j < names.length) →
    fillIn (slotValues names (slotForms names.length H)) (mkPart names N C ρ p) = formValues (plug G H ρ p)
  | .basic b, hk, hsh, ht, _ => by
    simp only [shaped] at hsh
    simp only [mkPart, plug, formValues]
    exact fillIn_absent (slotValues_onlyNames _ _) fun s hs => hk.none_of (ht s (by simpa [textsIn] using occursIn_basic hsh hs))
  | .quant k xs q, hk, hsh, ht, hh => by
    simp only [shaped] at hsh
    have hσ := slotValues_onlyNames names (slotForms names.length H)
    simp only [mkPart, plug, formValues, Quant.form_value]
    rw [fillIn_one hσ, fillIn_str (hk.none_of (ht _ (by simp [textsIn]))), fillIn_list hσ,
      mkAll_form H q hk hsh (fun t h => ht t (by simp [textsIn, h])) hh]
    rfl
  | .number k x q n, hk, hsh, ht, hh => by
    simp only [shaped, Bool.and_eq_true] at hsh
    have hσ := slotValues_onlyNames names (slotForms names.length H)
    simp only [mkPart, plug, formValues, Numeral.form_value]
    have hn : fillIn (slotValues names (slotForms names.length H)) [renArg ρ n] = [renArg ρ n] := fillIn_absent hσ fun s hs => by
      have := occursIn_simple (ρ := ρ) (args := [n]) (s := s) (by simpa using hsh.2) (by simpa [occursIn] using hs)
      exact hk.none_of (ht s (by simp only [textsIn]; simp at this; simp [this]))
    rw [fillIn_one hσ, fillIn_str (hk.none_of (ht _ (by simp [textsIn]))), fillIn_list hσ,
      mkAll_form H q hk hsh.1 (fun t h => ht t (by simp [textsIn, h])) hh, hn]
  | .all x r q, hk, hsh, ht, hh => by
    simp only [shaped, Bool.and_eq_true] at hsh
    have hσ := slotValues_onlyNames names (slotForms names.length H)
    simp only [mkPart, plug, formValues, Form.toValue]
    rw [fillIn_one hσ, fillIn_str (hk.none_of (ht _ (by simp [textsIn]))), fillIn_var hσ, fillIn_list hσ, fillIn_list hσ,
      mkAll_form H r (hk.sub fun i hi => by simp [kidsOf, hi]) hsh.1 (fun t h => ht t (by simp [textsIn, h])) (fun j hj => hh j (by simp [holesOf, hj])),
      mkAll_form H q (hk.sub fun i hi => by simp [kidsOf, hi]) hsh.2 (fun t h => ht t (by simp [textsIn, h])) (fun j hj => hh j (by simp [holesOf, hj]))]
    rfl
  | .hole j, hk, _, _, hh => by
    have hj := hh j (by simp [holesOf])
    simp only [mkPart, plug]
    have : slotValues names (slotForms names.length H) (.str (names.getD j "")) = some (formValues (H j)) := by
      refine slotValues_get (j := j) hk.nodup ?_ ?_
      · simp [List.getD, hj]
      · simp [slotForms, hj]
    simp only [fillIn, this, List.append_nil]
  | .app i es, hk, hsh, ht, hh => by
    simp only [shaped, Bool.and_eq_true, decide_eq_true_eq] at hsh
    have hσ := slotValues_onlyNames names (slotForms names.length H)
    simp only [mkPart, plug]
    have ih := mkMany_form H es (hk.sub fun i hi => by simp [kidsOf, hi]) hsh.2 (fun t h => ht t (by simpa [textsIn] using h))
      (fun j hj => hh j (by simpa [holesOf] using hj))
    rw [fillIn_fillIn hσ, ← hk.body i (by simp [kidsOf])]
    · congr 1
      funext a
      rw [← slotValues_map, ih, ← hsh.1]
    · intro s hs hn
      by_cases hR : s ∈ R
      · have h3 := hk.clean i (by simp [kidsOf]) s hs hR
        have := slotValues_isSome (vs := mkMany names N C ρ es) (by simp [mkMany_eq, hsh.1]) h3
        simp [hn] at this
      · exact hk.none_of hR
theorem mkAll_form {G : Nat → (Nat → List Form) → List Form} (H : Nat → List Form) : ∀ (ps : List Part), SlotsOk R names N C G (kidsAll ps) →
    shapedAll (fun i => (N i).length) ps = true → (∀ t ∈ textsAll ps, t ∉ R) → (∀ j ∈ holesAll ps, j < names.length) →
    fillIn (slotValues names (slotForms names.length H)) (mkAll names N C ρ ps) = formValues (plugAll G H ρ ps)
  | [], _, _, _, _ => rfl
  | p :: ps, hk, hsh, ht, hh => by
    simp only [shapedAll, Bool.and_eq_true] at hsh
    simp only [mkAll, plugAll, formValues_append]
    rw [fillIn_append, mk_form H p (hk.sub fun i hi => by simp [kidsAll, hi]) hsh.1 (fun t h => ht t (by simp [textsAll, h]))
        (fun j hj => hh j (by simp [holesAll, hj])),
      mkAll_form H ps (hk.sub fun i hi => by simp [kidsAll, hi]) hsh.2 (fun t h => ht t (by simp [textsAll, h]))
        (fun j hj => hh j (by simp [holesAll, hj]))]
theorem mkMany_form {G : Nat → (Nat → List Form) → List Form} (H : Nat → List Form) : ∀ (es : List (List Part)), SlotsOk R names N C G (kidsMany es) →
    shapedMany (fun i => (N i).length) es = true → (∀ t ∈ textsMany es, t ∉ R) → (∀ j ∈ holesMany es, j < names.length) →
    (mkMany names N C ρ es).map (fillIn (slotValues names (slotForms names.length H))) =
      slotForms es.length (fun j => plugNth G H ρ es j)
  | [], _, _, _, _ => rfl
  | e :: es, hk, hsh, ht, hh => by
    simp only [shapedMany, Bool.and_eq_true] at hsh
    simp only [mkMany, List.map_cons]
    rw [mkAll_form H e (hk.sub fun i hi => by simp [kidsMany, hi]) hsh.1.1 (fun t h => ht t (by simp [textsMany, h]))
        (fun j hj => hh j (by simp [holesMany, hj])),
      mkMany_form H es (hk.sub fun i hi => by simp [kidsMany, hi]) hsh.2 (fun t h => ht t (by simp [textsMany, h]))
        (fun j hj => hh j (by simp [holesMany, hj]))]
    simp only [slotForms, List.length_cons, List.range_succ_eq_map, List.map_cons, plugNth, List.map_map]
    rfl
end

end

end Verif
