import Verif.Composer

/-!
# C44: template application
-/

namespace Verif

/-! ## Specification -/

mutual
/-- The value occurs as an element of the list, or of a list or tuple nested in it. -/
def occursIn (t : Value) : List Value → Bool
  | [] => false
  | a :: rest => decide (a = t) || occursBelow t a || occursIn t rest
/-- The value occurs strictly inside a list or tuple. -/
def occursBelow (t : Value) : Value → Bool
  | .list xs => occursIn t xs
  | .tuple xs => occursIn t xs
  | _ => false
end

mutual
/-- Replace all slots at once: `σ` says what a slot is filled with. -/
def fillIn (σ : Value → Option (List Value)) : List Value → List Value
  | [] => []
  | a :: rest => match σ a with
    | some vs => vs ++ fillIn σ rest
    | none => fillOne σ a :: fillIn σ rest
/-- Fill the slots inside a list or tuple. -/
def fillOne (σ : Value → Option (List Value)) : Value → Value
  | .list xs => .list (fillIn σ xs)
  | .tuple xs => .tuple (fillIn σ xs)
  | v => v
end

/-- The filling of named slots: the first value given for the name. -/
def slotValues : List String → List (List Value) → Value → Option (List Value)
  | s :: ss, v :: vs, a => if a = .str s then some v else slotValues ss vs a
  | _, _, _ => none

/-- A slot of a template, as grammars write them: a list with one string. -/
def slot (s : String) : Value := .list [.str s]

/-- The value names the slot: it is a list or tuple that starts with the name. -/
def NamesSlot (a : Value) (s : String) : Prop := ∃ rest, a = .list (.str s :: rest) ∨ a = .tuple (.str s :: rest)

/-- The arguments of the template name the slots, one by one. -/
def NamesSlots : List Value → List String → Prop
  | [], [] => True
  | a :: args, s :: names => NamesSlot a s ∧ NamesSlots args names
  | _, _ => False

/-- No value contains the name of a slot that comes after its own. -/
def NoLater : List String → List (List Value) → Prop
  | _ :: names, v :: vs => (∀ s ∈ names, occursIn (.str s) v = false) ∧ NoLater names vs
  | _, _ => True

/-! ## Proofs -/

theorem NoLater.of_none : ∀ {names : List String} {vs : List (List Value)}, (∀ s ∈ names, ∀ v ∈ vs, occursIn (.str s) v = false) → NoLater names vs
  | [], _, _ => trivial
  | _ :: _, [], _ => trivial
  | _ :: _, v :: _, h => ⟨fun s hs => h s (List.mem_cons_of_mem _ hs) v (by simp),
      NoLater.of_none fun s hs u hu => h s (List.mem_cons_of_mem _ hs) u (List.mem_cons_of_mem _ hu)⟩

theorem occursIn_append (t : Value) (xs ys : List Value) : occursIn t (xs ++ ys) = (occursIn t xs || occursIn t ys) := by
  induction xs with
  | nil => simp [occursIn]
  | cons x xs ih => simp [occursIn, ih, Bool.or_assoc]

mutual
theorem replaceIn_absent (t : Value) (v : List Value) : ∀ xs, occursIn t xs = false → replaceIn t v xs = xs
  | [], _ => rfl
  | a :: rest, h => by
    simp only [occursIn, Bool.or_eq_false_iff, decide_eq_false_iff_not] at h
    rw [replaceIn, if_neg h.1.1, replaceOne_absent t v a h.1.2, replaceIn_absent t v rest h.2]
theorem replaceOne_absent (t : Value) (v : List Value) : ∀ a, occursBelow t a = false → replaceOne t v a = a
  | .list xs, h => by rw [replaceOne, replaceIn_absent t v xs (by simpa only [occursBelow] using h)]
  | .tuple xs, h => by rw [replaceOne, replaceIn_absent t v xs (by simpa only [occursBelow] using h)]
  | .none, _ => rfl
  | .num _, _ => rfl
  | .str _, _ => rfl
  | .var _, _ => rfl
  | .rvar _, _ => rfl
  | .tmpl _ _, _ => rfl
end

theorem replaceIn_append (t : Value) (v xs ys : List Value) : replaceIn t v (xs ++ ys) = replaceIn t v xs ++ replaceIn t v ys := by
  induction xs with
  | nil => simp [replaceIn]
  | cons x xs ih =>
    simp only [List.cons_append, replaceIn, ih]
    split <;> simp

theorem fillOne_ne_str (σ : Value → Option (List Value)) (s : String) {a : Value} (h : a ≠ .str s) : fillOne σ a ≠ .str s := by
  cases a <;> simp_all [fillOne]

/-- The filling that has one more slot. -/
def addSlot (σ : Value → Option (List Value)) (s : String) (v : List Value) : Value → Option (List Value) := fun a =>
  match σ a with
  | some vs => some vs
  | none => if a = .str s then some v else none

mutual
theorem replaceIn_fillIn (σ : Value → Option (List Value)) (s : String) (v : List Value)
    (h : ∀ a vs, σ a = some vs → occursIn (.str s) vs = false) :
    ∀ xs, replaceIn (.str s) v (fillIn σ xs) = fillIn (addSlot σ s v) xs
  | [] => rfl
  | a :: rest => by
    have ih := replaceIn_fillIn σ s v h rest
    cases hσ : σ a with
    | some vs => simp only [fillIn, addSlot, hσ, replaceIn_append, ih, replaceIn_absent _ _ _ (h a vs hσ)]
    | none =>
      by_cases ha : a = .str s
      · subst ha
        simp only [fillIn, addSlot, hσ, fillOne, replaceIn, if_true, ih]
      · simp only [fillIn, addSlot, hσ, if_neg ha, replaceIn, if_neg (fillOne_ne_str σ s ha), ih, replaceOne_fillOne σ s v h a]
theorem replaceOne_fillOne (σ : Value → Option (List Value)) (s : String) (v : List Value)
    (h : ∀ a vs, σ a = some vs → occursIn (.str s) vs = false) :
    ∀ a, replaceOne (.str s) v (fillOne σ a) = fillOne (addSlot σ s v) a
  | .list xs => by simp only [fillOne, replaceOne, replaceIn_fillIn σ s v h xs]
  | .tuple xs => by simp only [fillOne, replaceOne, replaceIn_fillIn σ s v h xs]
  | .none => rfl
  | .num _ => rfl
  | .str _ => rfl
  | .var _ => rfl
  | .rvar _ => rfl
  | .tmpl _ _ => rfl
end

mutual
theorem fillIn_none : ∀ xs, fillIn (fun _ => none) xs = xs
  | [] => rfl
  | a :: rest => by simp only [fillIn, fillIn_none rest, fillOne_none a]
theorem fillOne_none : ∀ a, fillOne (fun _ => none) a = a
  | .list xs => by simp only [fillOne, fillIn_none xs]
  | .tuple xs => by simp only [fillOne, fillIn_none xs]
  | .none => rfl
  | .num _ => rfl
  | .str _ => rfl
  | .var _ => rfl
  | .rvar _ => rfl
  | .tmpl _ _ => rfl
end

/-- One filling, and where it has nothing another one. -/
def orSlots (σ τ : Value → Option (List Value)) : Value → Option (List Value) := fun a => match σ a with
  | some vs => some vs
  | none => τ a

theorem NamesSlot.token {a : Value} {s : String} (h : NamesSlot a s) : slotToken a = .ok (.str s) := by
  obtain ⟨rest, rfl | rfl⟩ := h <;> rfl

theorem applyLoop_fill {args : List Value} (names : List String) (ha : NamesSlots args names) (vs : List (List Value)) (σ : Value → Option (List Value)) (body : List Value)
    (hl : vs.length ≤ names.length)
    (hσ : ∀ s ∈ names, ∀ a v, σ a = some v → occursIn (.str s) v = false)
    (hv : NoLater names vs) :
    applyLoop args vs (fillIn σ body) = .ok (fillIn (orSlots σ (slotValues names vs)) body) := by
  induction names generalizing vs σ args with
  | nil =>
    cases vs with
    | cons => simp at hl
    | nil =>
      cases args with
      | cons => simp [NamesSlots] at ha
      | nil =>
      have : orSlots σ (slotValues [] []) = σ := by funext a; simp only [orSlots, slotValues]; cases σ a <;> rfl
      simp [applyLoop, this]
  | cons s names ih =>
    cases args with
    | nil => simp [NamesSlots] at ha
    | cons a args =>
    cases vs with
    | nil =>
      have : orSlots σ (slotValues (s :: names) []) = σ := by funext a; simp only [orSlots, slotValues]; cases σ a <;> rfl
      simp [applyLoop, this]
    | cons v vs =>
      simp only [applyLoop, ha.1.token]
      rw [replaceIn_fillIn σ s v (hσ s (by simp))]
      have := ih ha.2 vs (addSlot σ s v) (by simpa using hl)
        (fun s' hs' a u hu => by
          simp only [addSlot] at hu
          split at hu
          · cases hu; exact hσ s' (List.mem_cons_of_mem _ hs') a _ (by assumption)
          · split at hu <;> simp only [Option.some.injEq, reduceCtorEq] at hu
            subst hu; exact hv.1 s' hs')
        hv.2
      rw [this]
      have heq : orSlots (addSlot σ s v) (slotValues names vs) = orSlots σ (slotValues (s :: names) (v :: vs)) := by
        funext a
        simp only [orSlots, addSlot, slotValues]
        cases σ a with
        | some => rfl
        | none => by_cases ha : a = .str s <;> simp [ha]
      rw [heq]

mutual
theorem fillIn_gone (σ : Value → Option (List Value)) (s : String) (hs : (σ (.str s)).isSome)
    (h : ∀ a vs, σ a = some vs → occursIn (.str s) vs = false) : ∀ xs, occursIn (.str s) (fillIn σ xs) = false
  | [] => rfl
  | a :: rest => by
    have ih := fillIn_gone σ s hs h rest
    cases hσ : σ a with
    | some vs => simp only [fillIn, hσ, occursIn_append, h a vs hσ, ih, Bool.or_self]
    | none =>
      have ha : a ≠ .str s := by rintro rfl; simp [hσ] at hs
      simp only [fillIn, hσ, occursIn, fillOne_ne_str σ s ha, decide_false, ih, Bool.or_false,
        fillOne_gone σ s hs h a]
theorem fillOne_gone (σ : Value → Option (List Value)) (s : String) (hs : (σ (.str s)).isSome)
    (h : ∀ a vs, σ a = some vs → occursIn (.str s) vs = false) : ∀ a, occursBelow (.str s) (fillOne σ a) = false
  | .list xs => by simp only [fillOne, occursBelow, fillIn_gone σ s hs h xs]
  | .tuple xs => by simp only [fillOne, occursBelow, fillIn_gone σ s hs h xs]
  | .none => rfl
  | .num _ => rfl
  | .str _ => rfl
  | .var _ => rfl
  | .rvar _ => rfl
  | .tmpl _ _ => rfl
end

theorem slotValues_mem {names : List String} {vs : List (List Value)} {a : Value} {v : List Value}
    (h : slotValues names vs a = some v) : v ∈ vs := by
  induction names generalizing vs with
  | nil => simp [slotValues] at h
  | cons s names ih =>
    cases vs with
    | nil => simp [slotValues] at h
    | cons u vs =>
      simp only [slotValues] at h
      split at h
      · cases h; simp
      · exact List.mem_cons_of_mem _ (ih h)

theorem slotValues_isSome {names : List String} {vs : List (List Value)} (hl : vs.length = names.length) {s : String}
    (h : s ∈ names) : (slotValues names vs (.str s)).isSome := by
  induction names generalizing vs with
  | nil => simp at h
  | cons t names ih =>
    cases vs with
    | nil => simp at hl
    | cons u vs =>
      simp only [slotValues]
      split
      · rfl
      · rename_i hne
        simp only [List.mem_cons] at h
        rcases h with rfl | h
        · exact absurd rfl hne
        · exact ih (by simpa using hl) h

/-- **C44** Applying a template replaces every occurrence of every slot, at any depth, by the atoms given for it, and changes
nothing else: the result is that of filling all slots at once. No slot is left. -/
theorem C44_apply {args : List Value} (names : List String) (ha : NamesSlots args names) (body : List Value) (vs : List (List Value)) (hl : vs.length = names.length)
    (hv : ∀ s ∈ names, ∀ v ∈ vs, occursIn (.str s) v = false) :
    ∃ out, applyTemplate (.tmpl args body) vs = .ok out ∧
      out = fillIn (slotValues names vs) body ∧ ∀ s ∈ names, occursIn (.str s) out = false := by
  have h := applyLoop_fill names ha vs (fun _ => none) body (by omega) (by simp) (NoLater.of_none hv)
  rw [fillIn_none] at h
  have horr : orSlots (fun _ => none) (slotValues names vs) = slotValues names vs := rfl
  rw [horr] at h
  refine ⟨_, h, rfl, fun s hs => ?_⟩
  exact fillIn_gone _ s (slotValues_isSome hl hs) (fun a v hav => hv s hs v (slotValues_mem hav)) body

/-- **C44** With fewer values than slots, the slots that got a value are filled, the others stay as they are. A value may itself contain slots, as
in `apply(det, nbar, Body)`, but not those that come after its own. -/
theorem C44_fewer_values {args : List Value} (names : List String) (ha : NamesSlots args names) (body : List Value) (vs : List (List Value)) (hl : vs.length ≤ names.length)
    (hv : NoLater names vs) :
    applyTemplate (.tmpl args body) vs = .ok (fillIn (slotValues names vs) body) := by
  have h := applyLoop_fill names ha vs (fun _ => none) body hl (by simp) hv
  rw [fillIn_none] at h
  exact h

/-- **C44** More values than slots: an `IndexError`. -/
theorem C44_more_values {args : List Value} (names : List String) (ha : NamesSlots args names) (body : List Value) (vs : List (List Value)) (hl : names.length < vs.length) :
    applyTemplate (.tmpl args body) vs = .error .indexError := by
  simp only [applyTemplate]
  induction names generalizing vs body args with
  | nil =>
    cases args with
    | cons => simp [NamesSlots] at ha
    | nil =>
    cases vs with
    | nil => simp at hl
    | cons => rfl
  | cons s names ih =>
    cases args with
    | nil => simp [NamesSlots] at ha
    | cons a args =>
    cases vs with
    | nil => simp at hl
    | cons v vs =>
      simp only [applyLoop, ha.1.token]
      exact ih ha.2 _ _ (by simpa using hl)

/-- The condition is needed: a value that itself contains a later slot has that slot filled too. -/
theorem C44_values_with_slots :
    ∃ out, applyTemplate (.tmpl [slot "R", slot "B"] [.str "R"]) [[.str "B"], [.num 1]] = .ok out ∧
      out ≠ fillIn (slotValues ["R", "B"] [[.str "B"], [.num 1]]) [.str "R"] :=
  ⟨[.num 1], by decide +kernel, by decide +kernel⟩

/-- A quantifier with a nested slot: `all(E1, Range, Body)` inside a `not`. -/
example : applyTemplate (.tmpl [slot "R", slot "B"]
      [.tuple [.str "not", .list [.tuple [.str "all", .var "E", .list [.str "R"], .list [.str "B", .str "B"]]]]])
      [[.tuple [.str "p", .var "E"]], [.tuple [.str "q", .var "E"]]] =
    .ok [.tuple [.str "not", .list [.tuple [.str "all", .var "E", .list [.tuple [.str "p", .var "E"]],
      .list [.tuple [.str "q", .var "E"], .tuple [.str "q", .var "E"]]]]]] := by decide +kernel

example := C44_apply (args := [slot "R", .tuple [.str "B", .num 1]]) ["R", "B"] ⟨⟨[], .inl rfl⟩, ⟨[.num 1], .inr rfl⟩, trivial⟩
      [.tuple [.str "not", .list [.tuple [.str "all", .var "E", .list [.str "R"], .list [.str "B", .str "B"]]]]]
      [[.tuple [.str "p", .var "E"]], [.tuple [.str "q", .var "E"]]] (by decide) (by decide +kernel)

end Verif
