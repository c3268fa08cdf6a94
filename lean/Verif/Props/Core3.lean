import Verif.CoreLemmas
import Verif.Props.Core2

/-!
# Properties of the core module: C16, C17, C21
-/

set_option linter.unusedSimpArgs false

namespace Verif

variable {W : Type}

/-! ## C16

`List.eraseDups` (Lean's library) keeps the first occurrence of each element, in order. -/

theorem addValue_foldl (xs acc : List Value) :
    xs.foldl addValue acc = acc ++ (xs.filter (fun x => !acc.contains x)).eraseDups := by
  induction xs generalizing acc with
  | nil => simp
  | cons x xs ih =>
    simp only [List.foldl_cons]
    by_cases h : x ∈ acc
    · simp [addValue, h, ih]
    · have h1 : addValue acc x = acc ++ [x] := by simp [addValue, h]
      rw [h1, ih]
      have h2 : (x :: xs).filter (fun y => !acc.contains y) = x :: xs.filter (fun y => !acc.contains y) := by
        simp [h]
      rw [h2, List.eraseDups_cons, List.filter_filter, List.append_assoc, List.singleton_append]
      have h3 : (fun y => !(acc ++ [x]).contains y) = (fun y => !(y == x) && !acc.contains y) := by
        funext y
        by_cases hy : y = x <;> simp [hy, Bool.and_comm]
      rw [h3]

theorem addValue_eraseDups (xs : List Value) : xs.foldl addValue [] = xs.eraseDups := by
  rw [addValue_foldl, List.filter_eq_self.2 (by simp)]
  rfl

theorem nodup_eraseDups_values (xs : List Value) : xs.eraseDups.Nodup := by
  rw [← addValue_eraseDups]
  have : ∀ (xs acc : List Value), acc.Nodup → (xs.foldl addValue acc).Nodup := by
    intro xs
    induction xs with
    | nil => intro acc h; exact h
    | cons x xs ih =>
      intro acc h
      refine ih _ ?_
      unfold addValue
      split
      · exact h
      · rename_i hx
        rw [List.nodup_append]
        refine ⟨h, by simp, ?_⟩
        intro a ha b hb e
        simp only [List.mem_singleton] at hb
        exact hx (hb ▸ e ▸ ha)
  exact this xs [] List.nodup_nil

theorem findAllLoop_str (x : String) (bs : List Binding) (acc : List Value) :
    findAllLoop (.str x) bs acc = .ok ((bs.filterMap (fun b => b.get x)).foldl addValue acc) := by
  induction bs generalizing acc with
  | nil => rfl
  | cons b bs ih =>
    simp only [findAllLoop, lookupKey]
    cases h : b.get x <;> simp [h, ih]

theorem findItem_str (b : Binding) (xs : List String) :
    findItem b (xs.map .str) = .ok (xs.map fun x => (b.get x).getD .none) := by
  induction xs with
  | nil => rfl
  | cons x xs ih => simp [findItem, lookupKey, ih]

theorem findAllLoop_list (xs : List String) (bs : List Binding) (acc : List Value) :
    findAllLoop (.list (xs.map .str)) bs acc =
      .ok ((bs.map (fun b => .list (xs.map fun x => (b.get x).getD .none))).foldl addValue acc) := by
  induction bs generalizing acc with
  | nil => rfl
  | cons b bs ih => simp only [findAllLoop, findItem_str, ih, List.map_cons, List.foldl_cons]

section C16
variable (mods : List (Module W)) (n : Nat) (w w' : W) (b : Binding) (a0 a body : Value) (bs : List Binding) (r : String)

/-- The values asked for, one per answer that has one. -/
def valuesOf (x : String) (bs : List Binding) : List Value := bs.filterMap (fun b => b.get x)

/-- The combinations of values asked for, one per answer; a variable without value gives `None`. -/
def combinationsOf (xs : List String) (bs : List Binding) : List Value :=
  bs.map fun b => .list (xs.map fun x => (b.get x).getD .none)

theorem extendRow_find {v0 : Value} (h0 : argValue b a0 = some v0) (ha : argValue b a = some body)
    (hr : b.get r = none) (v : Value) :
    extendRow b [a0, a, .var r] [.none, .none, v] b false = .ok (b.set r v, false) := by
  rw [extendRow_none h0, extendRow_none ha, extendRow_new hr _ _ _ _ hr]; rfl

/-- **C16** (`find_all`, one variable). The result variable is bound to the list of the distinct values of the variable in the
answers of the body, in the order of first appearance. -/
theorem C16_find_all (hp : NotDefined mods w "find_all") (x : String) (h0 : argValue b a0 = some (.str x))
    (ha : argValue b a = some body) (hr : b.get r = none)
    (hb : (solverAt (modelOf mods) n).solve body b w = .ok w' (.rows bs)) :
    (solverAt (modelOf mods) (n + 1)).solve (query1 "find_all" [a0, a, .var r]) b w =
      .ok w' (.rows [b.set r (.list (valuesOf x bs).eraseDups)]) := by
  rw [solve_core hp rfl (by decide)]
  simp only [coreFindAll, findAllValues]
  core_eval
  rw [h0, ha]
  simp only [Option.getD_some, M.bind_run, hb, iterSol, M.pure_run, findAllLoop_str, M.lift, M.pure]
  simp only [dedupRows_singleton]
  rw [resultsOf_one (by rfl) w' (extendRow_find b a0 a body r h0 ha hr _), addValue_eraseDups]
  rfl

/-- **C16** (`find_all`, several variables). -/
theorem C16_find_all_list (hp : NotDefined mods w "find_all") (xs : List String)
    (h0 : argValue b a0 = some (.list (xs.map .str))) (ha : argValue b a = some body) (hr : b.get r = none)
    (hb : (solverAt (modelOf mods) n).solve body b w = .ok w' (.rows bs)) :
    (solverAt (modelOf mods) (n + 1)).solve (query1 "find_all" [a0, a, .var r]) b w =
      .ok w' (.rows [b.set r (.list (combinationsOf xs bs).eraseDups)]) := by
  rw [solve_core hp rfl (by decide)]
  simp only [coreFindAll, findAllValues]
  core_eval
  rw [h0, ha]
  simp only [Option.getD_some, M.bind_run, hb, iterSol, M.pure_run, findAllLoop_list, M.lift, M.pure]
  simp only [dedupRows_singleton]
  rw [resultsOf_one (by rfl) w' (extendRow_find b a0 a body r h0 ha hr _), addValue_eraseDups]
  rfl

/-- **C16** (`find_one`). The first value, in the order of the answers; no answer iff there is none. -/
theorem C16_find_one (hp : NotDefined mods w "find_one") (x : String) (h0 : argValue b a0 = some (.str x))
    (ha : argValue b a = some body) (hr : b.get r = none)
    (hb : (solverAt (modelOf mods) n).solve body b w = .ok w' (.rows bs)) :
    (solverAt (modelOf mods) (n + 1)).solve (query1 "find_one" [a0, a, .var r]) b w =
      .ok w' (.rows (match valuesOf x bs with | [] => [] | v :: _ => [b.set r v])) := by
  rw [solve_core hp rfl (by decide)]
  simp only [coreFindOne, findAllValues]
  core_eval
  rw [h0, ha]
  simp only [Option.getD_some, M.bind_run, hb, iterSol, M.pure_run, findAllLoop_str, M.lift, M.pure, addValue_eraseDups,
    valuesOf]
  cases bs.filterMap (fun b => b.get x) with
  | nil => simp [dedupRows, resultsOf]
  | cons v vs =>
    simp only [List.eraseDups_cons, M.pure_run, dedupRows_singleton]
    rw [resultsOf_one (by rfl) w' (extendRow_find b a0 a body r h0 ha hr _)]
    rfl

end C16

example : (solverAt (modelOf [tableModule Unit Ex.db]) 2).solve
      (query1 "find_all" [.str "X", .list [.tuple [.str "parent", .var "X", .var "Y"]], .var "L"]) [] () =
    .ok () (.rows [[("L", .list [.str "ann", .str "bob"])]]) ∧
    (solverAt (modelOf [tableModule Unit Ex.db]) 2).solve
      (query1 "find_one" [.str "Y", .list [.tuple [.str "parent", .str "bob", .var "Y"]], .var "L"]) [] () =
    .ok () (.rows [[("L", .str "cid")]]) := by decide +kernel

/-! ## C17 -/

theorem orderedSet_eq {xs : List Value} (h : ∀ x ∈ xs, hashable x = true) (acc : List Value) :
    orderedSet xs acc = .ok (xs.foldl addValue acc) := by
  induction xs generalizing acc with
  | nil => rfl
  | cons x xs ih =>
    simp only [orderedSet, h x (by simp), if_true, List.foldl_cons]
    exact ih (fun y hy => h y (List.mem_cons_of_mem _ hy)) _

theorem lookupAll_eq {x : String} {bs : List Binding} {g : Binding → Value} (h : ∀ b ∈ bs, b.get x = some (g b)) :
    lookupAll (.var x) bs = .ok (bs.map g) := by
  induction bs with
  | nil => rfl
  | cons b bs ih =>
    simp only [lookupAll, lookupVar, nameOf, h b (by simp)]
    rw [ih (fun y hy => h y (List.mem_cons_of_mem _ hy))]
    rfl

theorem eraseDups_filter_eq {xs acc : List Value} (h : xs.Nodup) (hd : ∀ x ∈ xs, x ∉ acc) :
    xs.foldl addValue acc = acc ++ xs := by
  induction xs generalizing acc with
  | nil => simp
  | cons x xs ih =>
    simp only [List.nodup_cons] at h
    have h1 : addValue acc x = acc ++ [x] := by simp [addValue, hd x (by simp)]
    rw [List.foldl_cons, h1, ih h.2]
    · simp
    · intro y hy
      simp only [List.mem_append, List.mem_singleton, not_or]
      exact ⟨hd y (List.mem_cons_of_mem _ hy), fun e => h.1 (e ▸ hy)⟩

theorem allLoop_eq {ctx : Ctx W} {x : String} {body : Value} {es : List Value} {out : Value → SolOut} {w : W}
    (h : ∀ e ∈ es, ctx.solver.solve body (ctx.binding.union [(x, e)]) w = .ok w (out e)) (acc : List Value) :
    allLoop ctx x body es acc w = .ok w ((es.filter (fun e => decide (0 < (out e).len))).foldl addValue acc) := by
  induction es generalizing acc with
  | nil => rfl
  | cons e es ih =>
    simp only [allLoop]
    rw [M.bind_ok (h e (by simp)), ih (fun y hy => h y (List.mem_cons_of_mem _ hy))]
    by_cases h0 : 0 < (out e).len
    · simp [h0, addValue]
    · simp [h0]

section C17
variable (mods : List (Module W)) (n : Nat) (w : W) (b : Binding) (a1 a2 range body : Value)

theorem createResults_all {x : String} (hx : b.get x = none) (h1 : argValue b a1 = some range)
    (h2 : argValue b a2 = some body) (es : List Value) :
    createResults b [.var x, a1, a2] (es.map fun e => [e, .none, .none]) = .ok (es.map fun e => b.set x e) := by
  induction es with
  | nil => rfl
  | cons e es ih =>
    have : extendRow b [.var x, a1, a2] [e, .none, .none] b false = .ok (b.set x e, false) := by
      rw [extendRow_new hx _ _ _ _ hx, extendRow_none h1, extendRow_none h2]; rfl
    simp [createResults, ih, this]

theorem strRow_all_injective {e1 e2 : Value} (h1 : legal e1 = true) (h2 : legal e2 = true)
    (h : strRow [e1, .none, .none] = strRow [e2, .none, .none]) : e1 = e2 := by
  have := strRow_injective (a := [e1, .none, .none]) (b := [e2, .none, .none]) (by simp [legalList, legal, h1])
    (by simp [legalList, legal, h2]) h
  simpa using this

theorem dedupRows_all {es : List Value} (hl : ∀ e ∈ es, legal e = true) (hn : es.Nodup) (seen : List (List Char))
    (hs : ∀ e ∈ es, strRow [e, .none, .none] ∉ seen) :
    dedupRows seen (es.map fun e => [e, .none, .none]) = es.map fun e => [e, .none, .none] := by
  induction es generalizing seen with
  | nil => rfl
  | cons e es ih =>
    simp only [List.nodup_cons] at hn
    simp only [List.map_cons, dedupRows]
    have he : seen.contains (strRow [e, .none, .none]) = false := by
      simpa using hs e (by simp)
    rw [he]
    simp only [Bool.false_eq_true, if_false]
    rw [ih (fun y hy => hl y (List.mem_cons_of_mem _ hy)) hn.2]
    intro y hy
    simp only [List.mem_append, List.mem_singleton, not_or]
    refine ⟨hs y (List.mem_cons_of_mem _ hy), fun h => ?_⟩
    exact hn.1 (strRow_all_injective (hl y (List.mem_cons_of_mem _ hy)) (hl e (by simp)) h ▸ hy)

/-- **C17** (`all`). Let the range answer `rs` and let `g` give the value of the quantified variable in each of these. If the
body has an answer for every entity, the query yields the distinct entities, each once, in order of first
appearance; otherwise nothing. (For an empty range this is the empty list: the query fails.) The body is assumed to
return, and to leave the world alone, for each of the entities. -/
theorem C17_all (hp : NotDefined mods w "all") (x : String) (hx : b.get x = none) (h1 : argValue b a1 = some range)
    (h2 : argValue b a2 = some body) (rs : List Binding)
    (hr : (solverAt (modelOf mods) n).solve range b w = .ok w (.rows rs)) (g : Binding → Value)
    (hg : ∀ b' ∈ rs, b'.get x = some (g b')) (hh : ∀ b' ∈ rs, hashable (g b') = true ∧ legal (g b') = true)
    (out : Value → SolOut)
    (hb : ∀ b' ∈ rs, (solverAt (modelOf mods) n).solve body (b.set x (g b')) w = .ok w (out (g b'))) :
    (solverAt (modelOf mods) (n + 1)).solve (query1 "all" [.var x, a1, a2]) b w =
      .ok w (.rows (if ∀ b' ∈ rs, 0 < (out (g b')).len then (rs.map g).eraseDups.map (fun e => b.set x e) else [])) := by
  have hnd : ∀ xs : List Value, xs.eraseDups.Nodup := nodup_eraseDups_values
  have hmem : ∀ e, e ∈ (rs.map g).eraseDups ↔ ∃ b' ∈ rs, g b' = e := by
    intro e; rw [List.mem_eraseDups]; simp
  rw [solve_core hp rfl (by decide)]
  simp only [coreAll]
  core_eval
  rw [h1, h2]
  simp only [Option.getD_some, M.bind_run, hr, iterSol, M.pure_run, lookupAll_eq hg, M.lift, M.pure_run']
  rw [orderedSet_eq (by intro v hv; obtain ⟨b', hb', rfl⟩ := List.mem_map.1 hv; exact (hh b' hb').1), addValue_eraseDups]
  simp only [M.pure_run']
  cases hes : (rs.map g).eraseDups with
  | nil =>
    have : rs = [] := by
      cases rs with
      | nil => rfl
      | cons r rs => simp [List.eraseDups_cons] at hes
    subst this
    simp [dedupRows, resultsOf]
  | cons e es =>
    have hin : ∀ e' ∈ (rs.map g).eraseDups, (solverAt (modelOf mods) n).solve body (b.union [(x, e')]) w = .ok w (out e') := by
      intro e' he'
      obtain ⟨b', hb', rfl⟩ := (hmem e').1 he'
      exact hb b' hb'
    simp only [nameOf, M.bind_run, M.pure_run']
    rw [← hes, allLoop_eq (ctx := ⟨"all", [], [.var x, a1, a2], b, solverAt (modelOf mods) n⟩) hin]
    simp only []
    rw [eraseDups_filter_eq (List.Nodup.sublist List.filter_sublist (hnd _)) (by simp)]
    simp only [List.nil_append]
    by_cases hall : ∀ b' ∈ rs, 0 < (out (g b')).len
    · have hf : (rs.map g).eraseDups.filter (fun e => decide (0 < (out e).len)) = (rs.map g).eraseDups := by
        rw [List.filter_eq_self]
        intro e' he'
        obtain ⟨b', hb', rfl⟩ := (hmem e').1 he'
        simpa using hall b' hb'
      rw [hf, if_pos hall, if_pos rfl]
      simp only [M.pure_run]
      rw [dedupRows_all (fun e' he' => by obtain ⟨b', hb', rfl⟩ := (hmem e').1 he'; exact (hh b' hb').2) (hnd _) []
        (by simp)]
      have := createResults_all b a1 a2 range body hx h1 h2 (rs.map g).eraseDups
      rw [hes] at this ⊢
      simp only [List.map_cons] at this ⊢
      simp only [resultsOf, List.length_cons, List.length_nil, ne_eq, not_true, if_false, this, Except.map, M.lift]
      rfl
    · have hf : ((rs.map g).eraseDups.filter (fun e => decide (0 < (out e).len))).length ≠ (rs.map g).eraseDups.length := by
        intro h
        apply hall
        intro b' hb'
        have h3 := List.length_filter_eq_length_iff.1 h (g b') ((hmem _).2 ⟨b', hb', rfl⟩)
        simpa using h3
      rw [if_neg hall, if_neg hf]
      simp [dedupRows, resultsOf]

end C17

example : (solverAt (modelOf [tableModule Unit Ex.db]) 2).solve
      (query1 "all" [.var "X", .list [.tuple [.str "parent", .var "X", .var "Y"]], Ex.ages]) [] () =
    .ok () (.rows [[("X", .str "ann")], [("X", .str "bob")]]) ∧
  (solverAt (modelOf [tableModule Unit Ex.db]) 2).solve
      (query1 "all" [.var "Y", .list [.tuple [.str "parent", .var "X", .var "Y"]], .list [.tuple [.str "age", .var "Y", .var "A"]]]) [] () =
    .ok () (.rows []) := by decide +kernel

/-! ## C21 -/

section C21

/-- The atom obtained by putting values for the pattern's variables. -/
def putBack (σ : Binding) : Value → Value
  | .var x => (σ.get x).getD .none
  | v => v

/-- An atom matches a pattern: same length, and equal terms wherever the pattern has no variable. -/
def Matches : List Value → List Value → Prop
  | [], [] => True
  | _ :: as, .var _ :: ss => Matches as ss
  | a :: as, s :: ss => a = s ∧ Matches as ss
  | _, _ => False

theorem destructureLoop_some {as ss : List Value} (h : Matches as ss) : destructureLoop as ss = some as := by
  induction ss generalizing as with
  | nil => cases as <;> simp_all [Matches, destructureLoop]
  | cons s ss ih =>
    cases as with
    | nil => cases s <;> simp [Matches] at h
    | cons a as =>
      simp only [destructureLoop]
      cases s <;> simp only [Matches] at h
      case var x =>
        rw [ih h]
        by_cases e : a = .var x <;> simp [e]
      all_goals (rw [h.1, ih h.2]; simp)

theorem destructureLoop_none {as ss : List Value} (h : ¬ Matches as ss) (hl : as.length = ss.length) :
    destructureLoop as ss = none := by
  induction ss generalizing as with
  | nil => cases as <;> simp_all [Matches]
  | cons s ss ih =>
    cases as with
    | nil => simp at hl
    | cons a as =>
      simp only [List.length_cons, Nat.add_right_cancel_iff] at hl
      simp only [destructureLoop]
      cases s <;> simp only [Matches] at h
      case var x =>
        rw [ih h hl]
        by_cases e : a = .var x <;> simp [e]
      all_goals
        split
        · rename_i e
          rw [ih (fun hm => h ⟨e, hm⟩) hl]; rfl
        · rfl

theorem coreDestructure_go_fail {ctx : Ctx W} {atom : List Value} (h : ¬ Matches atom ctx.arguments.tail) (w : W) :
    coreDestructure.go ctx atom w = .ok w (.rows [.none :: List.replicate ctx.arguments.tail.length .none]) := by
  unfold coreDestructure.go
  by_cases hl : atom.length = ctx.arguments.tail.length
  · simp only [destructureLoop_none h hl, ite_self]; rfl
  · simp only [ne_eq, hl, not_false_eq_true, if_true]; rfl

/-- The pattern's variables are new and different. -/
def FreshPattern (b : Binding) (pat : List Value) : Prop :=
  (∀ x, Value.var x ∈ pat → b.get x = none) ∧ (pat.filter Value.isVar).Nodup

theorem FreshPattern.tail {b : Binding} {s : Value} {pat : List Value} (h : FreshPattern b (s :: pat)) :
    FreshPattern b pat := by
  refine ⟨fun x hx => h.1 x (List.mem_cons_of_mem _ hx), ?_⟩
  have := h.2
  rw [List.filter_cons] at this
  split at this
  · exact (List.nodup_cons.1 this).2
  · exact this

theorem extendRow_destructure {b : Binding} {as pat : List Value} (hm : Matches as pat) (hf : FreshPattern b pat)
    (hnn : ∀ v ∈ as, v ≠ .none) (result : Binding) (hres : ∀ x, Value.var x ∈ pat → result.get x = none) :
    ∃ b', extendRow b pat as result false = .ok (b', false) ∧ pat.map (putBack b') = as ∧
      ∀ y, Value.var y ∉ pat → b'.get y = result.get y := by
  induction pat generalizing as result with
  | nil =>
    cases as <;> simp only [Matches] at hm
    exact ⟨result, rfl, rfl, fun _ _ => rfl⟩
  | cons s pat ih =>
    cases as with
    | nil => cases s <;> simp [Matches] at hm
    | cons a as =>
      cases hs : s.isVar with
      | true =>
        cases s <;> simp only [Value.isVar, Bool.false_eq_true] at hs
        rename_i x
        simp only [Matches] at hm
        have hxb := hf.1 x (by simp)
        have hxr := hres x (by simp)
        have hxp : Value.var x ∉ pat := by
          have := hf.2
          rw [List.filter_cons_of_pos (by rfl)] at this
          intro h
          exact (List.nodup_cons.1 this).1 (List.mem_filter.2 ⟨h, rfl⟩)
        obtain ⟨b', h1, h2, h3⟩ := ih hm hf.tail (fun v hv => hnn v (List.mem_cons_of_mem _ hv)) (result.set x a) (by
          intro y hy
          rw [Dict.get_set]
          have : x ≠ y := fun e => hxp (e ▸ hy)
          simp [this, hres y (List.mem_cons_of_mem _ hy)])
        refine ⟨b', ?_, ?_, ?_⟩
        · rw [extendRow_new hxb _ _ _ _ hxr, h1]
        · have : b'.get x = some a := by rw [h3 x hxp]; simp
          simp [putBack, this, h2]
        · intro y hy
          simp only [List.mem_cons, Value.var.injEq, not_or] at hy
          rw [h3 y hy.2, Dict.get_set]
          simp [Ne.symm hy.1]
      | false =>
        have hm' : a = s ∧ Matches as pat := by
          cases s <;> simp_all [Matches, Value.isVar]
        obtain ⟨b', h1, h2, h3⟩ := ih hm'.2 hf.tail (fun v hv => hnn v (List.mem_cons_of_mem _ hv)) result
          (fun y hy => hres y (List.mem_cons_of_mem _ hy))
        refine ⟨b', ?_, ?_, ?_⟩
        · rw [extendRow_cons_const _ _ hs]
          simp [hm'.1, h1]
        · have : putBack b' s = s := by cases s <;> simp_all [putBack, Value.isVar]
          simp [this, h2, hm'.1]
        · intro y hy
          simp only [List.mem_cons, not_or] at hy
          exact h3 y hy.2

variable (mods : List (Module W)) (n : Nat) (w : W) (b : Binding)

/-- **C21.** If the atom `atom` (variables already replaced by their values) has the form of the pattern, `destructure` has one
answer, and putting the values of that answer into the pattern gives back the atom. -/
theorem C21_destructure_match_partial (hp : NotDefined mods w "destructure") (a : Value) (atom pat : List Value)
    (ha : argValue b a = some (.list [.tuple atom])) (hm : Matches (bindVarsList b atom) pat) (hf : FreshPattern b pat)
    (hnn : ∀ v ∈ bindVarsList b atom, v ≠ .none) :
    ∃ b', (solverAt (modelOf mods) (n + 1)).solve (query1 "destructure" (a :: pat)) b w = .ok w (.rows [b']) ∧
      pat.map (putBack b') = bindVarsList b atom ∧ ∀ y, Value.var y ∉ pat → b'.get y = b.get y := by
  obtain ⟨b', h1, h2, h3⟩ := extendRow_destructure hm hf hnn b hf.1
  refine ⟨b', ?_, h2, h3⟩
  have hl : (bindVarsList b atom).length = pat.length := by
    rw [← h2]; simp
  rw [solve_core hp rfl (by decide)]
  simp only [coreDestructure]
  core_eval
  rw [ha]
  simp only [Option.getD_some, bindVars, bindVarsList, coreDestructure.go, List.tail_cons, hl, ne_eq, not_true, if_false,
    destructureLoop_some hm, M.pure_run, dedupRows_singleton]
  rw [resultsOf_one (by simp [hl]) w (by rw [extendRow_none ha]; exact h1)]
  rfl

/-- **C21** (mismatch). If the atom does not have the form of the pattern, `destructure` still has an answer, in which every
variable of the pattern is `None`. So a mismatch is reported by the value `None`, not by failure. -/
theorem C21_destructure_mismatch (hp : NotDefined mods w "destructure") (a : Value) (atom pat : List Value)
    (ha : argValue b a = some (.list [.tuple atom])) (hm : ¬ Matches (bindVarsList b atom) pat)
    (hf : ∀ x, Value.var x ∈ pat → b.get x = none) :
    ∃ b', (solverAt (modelOf mods) (n + 1)).solve (query1 "destructure" (a :: pat)) b w = .ok w (.rows [b']) ∧
      ∀ x, Value.var x ∈ pat → b'.get x = some .none := by
  have key : ∀ (pat : List Value) (result : Binding), (∀ x, Value.var x ∈ pat → b.get x = none) →
      (∀ x v, Value.var x ∈ pat → result.get x = some v → v = .none) →
      ∃ b', extendRow b pat (List.replicate pat.length .none) result false = .ok (b', false) ∧
        (∀ x, Value.var x ∈ pat → b'.get x = some .none) ∧
        ∀ x, result.get x = some .none → b'.get x = some .none := by
    intro pat
    induction pat with
    | nil => intro result _ _; exact ⟨result, rfl, by simp, fun _ h => h⟩
    | cons s pat ih =>
      intro result hb hr
      rw [List.length_cons, List.replicate_succ]
      cases hs : s.isVar with
      | false =>
        obtain ⟨b', h1, h2, h3⟩ := ih result (fun x hx => hb x (List.mem_cons_of_mem _ hx))
          (fun x v hx => hr x v (List.mem_cons_of_mem _ hx))
        refine ⟨b', by rw [extendRow_cons_const _ _ hs]; simp [h1], ?_, h3⟩
        intro x hx
        rcases List.mem_cons.1 hx with e | e
        · subst e; simp [Value.isVar] at hs
        · exact h2 x e
      | true =>
        cases s <;> simp only [Value.isVar, Bool.false_eq_true] at hs
        rename_i y
        obtain ⟨b', h1, h2, h3⟩ := ih (result.set y .none) (fun x hx => hb x (List.mem_cons_of_mem _ hx)) (by
          intro x v hx h
          rw [Dict.get_set] at h
          split at h
          · simpa using h.symm
          · exact hr x v (List.mem_cons_of_mem _ hx) h)
        refine ⟨b', ?_, ?_, ?_⟩
        · rw [extendRow_cons_var]
          simp only [(Dict.has_false_iff b y).2 (hb y (by simp)), Bool.false_eq_true, if_false]
          cases hg : result.get y with
          | none => simpa [hg] using h1
          | some v =>
            have := hr y v (by simp) hg
            subst this
            simpa [hg] using h1
        · intro x hx
          rcases List.mem_cons.1 hx with e | e
          · cases e; exact h3 y (by simp)
          · exact h2 x e
        · intro x hx
          refine h3 x ?_
          rw [Dict.get_set]; split <;> simp [hx]
  obtain ⟨b', h1, h2, -⟩ := key pat b hf (fun x v hx h => by rw [hf x hx] at h; simp at h)
  refine ⟨b', ?_, h2⟩
  rw [solve_core hp rfl (by decide)]
  simp only [coreDestructure]
  core_eval
  rw [ha]
  simp only [Option.getD_some, bindVars, bindVarsList]
  rw [coreDestructure_go_fail (ctx := ⟨"destructure", [], a :: pat, b, solverAt (modelOf mods) n⟩) hm]
  simp only [List.tail_cons, dedupRows_singleton]
  rw [resultsOf_one (by simp) w (by rw [extendRow_none ha]; exact h1)]
  rfl

end C21

example : Matches (bindVarsList [("O", .str "pen")] [.str "left_of", .var "O", .str "book"]) [.str "left_of", .var "A", .var "B"] ∧
    (solverAt (modelOf ([] : List (Module Unit))) 1).solve (query1 "destructure"
      [.list [.tuple [.str "left_of", .var "O", .str "book"]], .str "left_of", .var "A", .var "B"]) [("O", .str "pen")] () =
    .ok () (.rows [[("O", .str "pen"), ("A", .str "pen"), ("B", .str "book")]]) := by
  constructor
  · simp [bindVarsList, bindVars, Dict.get_cons, Matches]
  · decide +kernel

example : ¬ Matches [.str "right_of", .str "pen"] [.str "left_of", .var "A"] ∧
    (solverAt (modelOf ([] : List (Module Unit))) 1).solve (query1 "destructure"
      [.list [.tuple [.str "right_of", .str "pen"]], .str "left_of", .var "A"]) [] () = .ok () (.rows [[("A", .none)]]) := by
  constructor
  · simp [Matches]
  · decide +kernel

end Verif
