import Verif.Props.Claims

/-!
# C110: sessions of claims never make the memory contradict itself
-/

namespace Verif

variable {W : Type}

/-! ## Specification -/

/-- `check_claim(Atom) :- destructure(Atom, p, A, B), not(p(B, A)).` (`tests/integration/sir/inferences.pl:55,61`; the two rules are taken together) -/
def converseCheck (p : String) : Rule :=
  ⟨[.str "check_claim", .var "Atom"], .list [.tuple [.str "destructure", .var "Atom", .str p, .var "A", .var "B"],
    .tuple [.str "not", .list [.tuple [.str p, .var "B", .var "A"]]]]⟩

/-- The claim that `p` holds between two names. -/
def claimOf (p : String) (c : String × String) : String × List Value := (p, [.str c.1, .str c.2])

/-- The inference module has the rules for claims and the check, and no rules for what the check uses. -/
structure ChecksConverse (p : String) (s : InfState) : Prop extends CanClaim s where
  check : s.relations.get "check_claim" = some .handleRule
  checkRule : s.rules.get "check_claim" = some [converseCheck p]
  freeP : s.relations.get p = none
  freeDestructure : s.relations.get "destructure" = none

/-- What is claimed is about a relation of the memory module with two columns only. -/
structure OnlyStored (p : String) (rels : Dict (List String)) (tables : List (Dict (List (List Value)))) : Prop where
  apart : NoClaims rels tables
  columns : ∃ c1 c2, rels.get p = some [c1, c2]
  check : rels.get "check_claim" = none
  tables : ∀ db ∈ tables, db.get p = none ∧ db.get "check_claim" = none ∧ db.get "destructure" = none

/-- What is known after some claims: a claim is taken unless its converse is known (specification). -/
def knownAfter (p : String) : Query → List (String × String) → Query
  | known, [] => known
  | known, c :: cs => if claimOf p (c.2, c.1) ∈ known then knownAfter p known cs else knownAfter p (known ++ [claimOf p c]) cs

/-- The replies (specification). -/
def claimReplies (p : String) (no yes : String) : Query → List (String × String) → List Value
  | _, [] => []
  | known, c :: cs =>
    if claimOf p (c.2, c.1) ∈ known then .str no :: claimReplies p no yes known cs else .str yes :: claimReplies p no yes (known ++ [claimOf p c]) cs

/-- No two different names stand in the relation both ways around (specification). -/
def Antisymmetric (p : String) (known : Query) : Prop := ∀ x y, claimOf p (x, y) ∈ known → claimOf p (y, x) ∈ known → x = y

/-- The claims one after the other: the meaning of each is solved and a reply is generated. -/
def runClaims (solver : SolverApi W) (wg : Grammar WriteSem) (l : Lens W SimpleStore) (m : Nat) (p : String) : List (String × String) → M W (List Value)
  | [] => pure []
  | c :: cs => do
    let _ ← solver.solve (claimMeaning [claimOf p c]) []
    let reply ← generateOutput solver wg l m
    let replies ← runClaims solver wg l m p cs
    pure (reply :: replies)

/-! ## The check -/

theorem dedup_same {row : List Value} : ∀ {rows : List (List Value)}, (∀ r ∈ rows, r = row) → dedupRows [] rows = if rows = [] then [] else [row] := by
  intro rows h
  have key : ∀ rs : List (List Value), (∀ r ∈ rs, r = row) → dedupRows [strRow row] rs = [] := by
    intro rs
    induction rs with
    | nil => intro _; rfl
    | cons r rs ih =>
      intro h
      rw [dedupRows, h r List.mem_cons_self, if_pos (by simp)]
      exact ih fun r hr => h r (List.mem_cons_of_mem _ hr)
  cases rows with
  | nil => rfl
  | cons r rs =>
    rw [dedupRows, if_neg (by simp), h r List.mem_cons_self, List.nil_append, key rs fun r hr => h r (List.mem_cons_of_mem _ hr)]
    simp

theorem solve_one_none {ms : List (Module W)} {w : W} {n : Nat} {a1 a2 : Value} {b b1 : Binding} {w1 w2 : W}
    (h1 : (solverAt (modelOf ms) (n + 1)).solve (.list [a1]) b w = .ok w1 (.rows [b1]))
    (h2 : (solverAt (modelOf ms) (n + 1)).solve (.list [a2]) b1 w1 = .ok w2 (.rows [])) :
    (solverAt (modelOf ms) (n + 1)).solve (.list [a1, a2]) b w = .ok w2 (.rows []) := by
  show solveAtoms (solverAt (modelOf ms) n) (modelOf ms) [a1, a2] b w = _
  rw [solveAtoms, M.bind_ok (show solveSingle (solverAt (modelOf ms) n) (modelOf ms) a1 b w = .ok w1 (.rows [b1]) from h1)]
  dsimp only
  rw [collect, M.bind_ok (show solveAtoms (solverAt (modelOf ms) n) (modelOf ms) [a2] b1 w1 = .ok w2 (.rows []) from h2)]
  rfl

section
variable {li : Lens W InfState} {l lf : Lens W SimpleStore} {rels : Dict (List String)} {tables : List (Dict (List (List Value)))}
  {rs : List HornRule} {ar : String → Option Nat} (S : TellSystem li l lf rels tables rs ar) {p : String}

include S in
theorem stored_found (ho : OnlyStored p rels tables) {w : W} (c : ChecksConverse p (li.get w)) {c1 c2 : String} (hc : rels.get p = some [c1, c2]) :
    findRelations (modelOf (tellModules li l lf rels tables)) w p = [memoryRelation lf p [c1, c2]] := by
  have hb : findRelations (tables.map (tableModule W)) w p = [] := by
    simp only [findRelations, List.filterMap_eq_nil_iff, List.mem_map]
    rintro m ⟨db, hdb, rfl⟩
    simp [tableModule, (ho.tables db hdb).1]
  have hcore : (coreModule W).relations w p = none := by
    cases h : (coreTable W).get p with
    | none => simp [coreModule, h]
    | some f => have := S.reserved.2.2 p f h; rw [hc] at this; simp at this
  have hinf : (inferenceModule li).relations w p = none := by simp [inferenceModule, c.freeP]
  have hout : (outputBuffer l).relations w p = none := by
    have : outputRelations.get p = none := by
      cases e : outputRelations.get p with
      | none => rfl
      | some cs => have := (S.free p (.inr (.inr (.inr ((Dict.has_iff _ _).2 ⟨_, e⟩))))).1; rw [hc] at this; simp at this
    simp [outputBuffer, memoryModule, this]
  have hmem : (memoryModule lf rels).relations w p = some (memoryRelation lf p [c1, c2]) := by simp [memoryModule, hc]
  simp only [findRelations] at hb
  simp only [modelOf, tellModules, findRelations, List.filterMap_cons, hcore, List.filterMap_append, hb, hinf, hout, hmem, List.filterMap_nil,
    List.nil_append, List.append_nil]

include S in
theorem stored_lookup (ho : OnlyStored p rels tables) {w : W} (c : ChecksConverse p (li.get w)) {known : Query} (hko : KnownOk rels known)
    (hk : Represents (lf.get w) (recordsOf rels known)) {b : Binding} {x y : String} (hA : b.get "A" = some (.str x)) (hB : b.get "B" = some (.str y)) (n : Nat) :
    (solverAt (modelOf (tellModules li l lf rels tables)) (n + 1)).solve (.list [.tuple [.str p, .var "B", .var "A"]]) b w =
      .ok w (.rows (if claimOf p (y, x) ∈ known then [b] else [])) := by
  obtain ⟨c1, c2, hc⟩ := ho.columns
  have hd : p ≠ "$disjunction" := by
    intro e; have := S.reserved.1; rw [e] at hc; rw [hc] at this; simp at this
  have hs := select_complete hk (p := p) (cs := [c1, c2]) (fun r hr e => by
    have h1 := (recordsOf_ok S.columns hko r hr).1
    have : r.columns = [c1, c2] := by
      have := h1.columns
      rw [e, hc] at this
      exact (Option.some.inj this).symm
    exact ⟨this, this ▸ h1.nodup, this ▸ h1.length, h1.values⟩) [.str y, .str x]
  have hrows : ∀ r ∈ (rowsOf (recordsOf rels known) p).filter (rowMatches [.str y, .str x]), r = [.str y, .str x] := by
    intro r hr
    obtain ⟨h1, h2⟩ := List.mem_filter.1 hr
    obtain ⟨cs, h3, h4, _⟩ := hko _ (mem_rowsOf.1 h1)
    have : cs = [c1, c2] := by rw [hc] at h3; exact (Option.some.inj h3).symm
    subst this
    match r, h4 with
    | [r1, r2], _ =>
      simp [rowMatches] at h2
      rw [h2.1, h2.2]
  have hmem : (rowsOf (recordsOf rels known) p).filter (rowMatches [.str y, .str x]) = [] ↔ claimOf p (y, x) ∉ known := by
    constructor
    · intro h hm
      have : [.str y, .str x] ∈ (rowsOf (recordsOf rels known) p).filter (rowMatches [.str y, .str x]) :=
        List.mem_filter.2 ⟨mem_rowsOf.2 hm, by simp [rowMatches]⟩
      rw [h] at this; simp at this
    · intro h
      rw [List.eq_nil_iff_forall_not_mem]
      intro r hr
      have e := hrows r hr
      subst e
      exact h (mem_rowsOf.1 (List.mem_filter.1 hr).1)
  have hf : findRelationValues (solverAt (modelOf (tellModules li l lf rels tables)) n) (modelOf (tellModules li l lf rels tables)) p [.var "B", .var "A"] b w =
      .ok w (.rows (if claimOf p (y, x) ∈ known then [[.str y, .str x]] else [])) := by
    rw [findRelationValues, M.bind_ok (M.gets_run _ w), stored_found S ho c hc]
    have hdb : dbValues [.var "B", .var "A"] b = [.str y, .str x] := by simp [dbValues, hA, hB]
    have hq : ∀ ctx, (memoryRelation lf p [c1, c2]).query [.str y, .str x] ctx w =
        .ok w (.rows ((rowsOf (recordsOf rels known) p).filter (rowMatches [.str y, .str x]))) := by
      intro ctx
      show memoryQuery lf _ _ w = _
      unfold memoryQuery
      rw [M.bind_ok (M.gets_run _ w)]
      simp only [hs]
      rfl
    simp only [queryRelations, hdb]
    rw [M.bind_ok (hq _)]
    simp only [M.pure_run, List.map_nil, List.nil_append, dedup_same hrows, hmem]
    by_cases hm : claimOf p (y, x) ∈ known <;> simp [hm]
  show solveSingle.go (solverAt (modelOf (tellModules li l lf rels tables)) n) (modelOf (tellModules li l lf rels tables)) b p [.var "B", .var "A"] w = _
  simp only [solveSingle.go, hd, if_false]
  rw [M.bind_ok hf]
  by_cases hm : claimOf p (y, x) ∈ known
  · simp only [hm, if_true]
    rw [resultsOf_one (args := [.var "B", .var "A"]) (row := [.str y, .str x]) rfl w (b' := b) (c := false) (by
      simp [extendRow, (Dict.has_iff b "A").2 ⟨_, hA⟩, (Dict.has_iff b "B").2 ⟨_, hB⟩])]
    rfl
  · simp only [hm, if_false]
    rfl

include S in
theorem destructure_here (ho : OnlyStored p rels tables) {w : W} (c : ChecksConverse p (li.get w)) :
    NotDefined (tellModules li l lf rels tables) w "destructure" := by
  intro m hm
  simp only [tellModules, List.mem_cons, List.mem_append, List.mem_map, List.not_mem_nil, or_false] at hm
  rcases hm with (⟨db, hdb, rfl⟩ | rfl) | rfl | rfl
  · simp [tableModule, (ho.tables db hdb).2.2]
  · simp [memoryModule, S.reserved.2.2 "destructure" _ rfl]
  · simp [inferenceModule, c.freeDestructure]
  · rfl

theorem check_found (ho : OnlyStored p rels tables) {w : W} (c : ChecksConverse p (li.get w)) :
    findRelations (modelOf (tellModules li l lf rels tables)) w "check_claim" = [{ predicate := "check_claim", query := handleRule li.get }] := by
  have hb : findRelations (tables.map (tableModule W)) w "check_claim" = [] := by
    simp only [findRelations, List.filterMap_eq_nil_iff, List.mem_map]
    rintro m ⟨db, hdb, rfl⟩
    simp [tableModule, (ho.tables db hdb).2.1]
  have hcore : (coreModule W).relations w "check_claim" = none := rfl
  have hinf : (inferenceModule li).relations w "check_claim" = some { predicate := "check_claim", query := handleRule li.get } := by
    simp [inferenceModule, c.check]
  have hout : (outputBuffer l).relations w "check_claim" = none := rfl
  have hmem : (memoryModule lf rels).relations w "check_claim" = none := by simp [memoryModule, ho.check]
  simp only [findRelations] at hb
  simp only [modelOf, tellModules, findRelations, List.filterMap_cons, hcore, List.filterMap_append, hb, hinf, hout, hmem, List.filterMap_nil,
    List.nil_append, List.append_nil]

include S in
/-- The check succeeds unless the converse is known. -/
theorem check_here (ho : OnlyStored p rels tables) {w : W} (c : ChecksConverse p (li.get w)) {known : Query} (hko : KnownOk rels known)
    (hk : Represents (lf.get w) (recordsOf rels known)) (x y : String) (n : Nat) :
    (solverAt (modelOf (tellModules li l lf rels tables)) (n + 3)).solve (.list [checkClaim]) [("Atom", toQuery [claimOf p (x, y)])] w =
      .ok w (.rows (if claimOf p (y, x) ∈ known then [] else [[("Atom", toQuery [claimOf p (x, y)])]])) := by
  have hv : toQuery [claimOf p (x, y)] = .list [.tuple [.str p, .str x, .str y]] := rfl
  rw [hv]
  obtain ⟨b', h1, h2, h3⟩ := C21_destructure_match_partial (tellModules li l lf rels tables) (n + 1) w
    [("Atom", .list [.tuple [.str p, .str x, .str y]])] (destructure_here S ho c) (.var "Atom") [.str p, .str x, .str y] [.str p, .var "A", .var "B"] rfl
    (by simp [bindVarsList, bindVars, Matches]) ⟨by simp [Dict.get], by simp [Value.isVar, List.filter]⟩ (by simp [bindVarsList, bindVars])
  have hA : b'.get "A" = some (.str x) := by
    have : putBack b' (.var "A") = .str x := by simp [bindVarsList, bindVars] at h2; exact h2.2.1
    simp only [putBack] at this
    cases e : b'.get "A" with
    | none => rw [e] at this; simp at this
    | some v => rw [e] at this; simp at this; rw [this]
  have hB : b'.get "B" = some (.str y) := by
    have : putBack b' (.var "B") = .str y := by simp [bindVarsList, bindVars] at h2; exact h2.2.2
    simp only [putBack] at this
    cases e : b'.get "B" with
    | none => rw [e] at this; simp at this
    | some v => rw [e] at this; simp at this; rw [this]
  have hAtom : b'.get "Atom" = some (.list [.tuple [.str p, .str x, .str y]]) := by rw [h3 "Atom" (by simp)]; rfl
  have hnot := C13_not (tellModules li l lf rels tables) w (n := n + 1) (b := b') (a := .list [.tuple [.str p, .var "B", .var "A"]])
    (body := .list [.tuple [.str p, .var "B", .var "A"]]) (not_here S ho.apart c.toCanClaim) rfl
  rw [stored_lookup S ho c hko hk hA hB n] at hnot
  have hbody : (solverAt (modelOf (tellModules li l lf rels tables)) (n + 2)).solve (converseCheck p).body
      [("Atom", .list [.tuple [.str p, .str x, .str y]])] w = .ok w (.rows (if claimOf p (y, x) ∈ known then [] else [b'])) := by
    by_cases hm : claimOf p (y, x) ∈ known
    · simp only [hm, if_true] at hnot ⊢
      exact solve_one_none h1 hnot
    · simp only [hm, if_false] at hnot ⊢
      exact solve_pair h1 hnot
  have hrule : solveRule (converseCheck p) [.var "Atom"] (solverAt (modelOf (tellModules li l lf rels tables)) (n + 2))
      [("Atom", .list [.tuple [.str p, .str x, .str y]])] w =
      .ok w (if claimOf p (y, x) ∈ known then [] else [[.list [.tuple [.str p, .str x, .str y]]]]) := by
    have hb : bindHead [("Atom", .list [.tuple [.str p, .str x, .str y]])] (converseCheck p).head.tail [.var "Atom"]
        (Dict.without [("Atom", .list [.tuple [.str p, .str x, .str y]])] (converseCheck p).variables) =
        some [("Atom", .list [.tuple [.str p, .str x, .str y]])] := rfl
    simp only [solveRule, hb, show emptyBody (converseCheck p).body = false from rfl, Bool.false_eq_true, if_false]
    rw [M.bind_ok hbody]
    simp only [ruleRows]
    by_cases hm : claimOf p (y, x) ∈ known
    · simp [hm, headRows, M.pure_run]
    · simp [hm, headRows, headRow, converseCheck, hAtom, M.pure_run]
  have hf : findRelationValues (solverAt (modelOf (tellModules li l lf rels tables)) (n + 2)) (modelOf (tellModules li l lf rels tables)) "check_claim"
      [.var "Atom"] [("Atom", .list [.tuple [.str p, .str x, .str y]])] w =
      .ok w (.rows (if claimOf p (y, x) ∈ known then [] else [[.list [.tuple [.str p, .str x, .str y]]]])) := by
    rw [findRelationValues, M.bind_ok (M.gets_run _ w), check_found ho c]
    simp only [queryRelations]
    have hq : ∀ db, handleRule li.get db ⟨"check_claim", [], [.var "Atom"], [("Atom", .list [.tuple [.str p, .str x, .str y]])],
        solverAt (modelOf (tellModules li l lf rels tables)) (n + 2)⟩ w =
        .ok w (.rows (if claimOf p (y, x) ∈ known then [] else [[.list [.tuple [.str p, .str x, .str y]]]])) := by
      intro db
      refine (handleRule_run (p := "check_claim") (db := db) c.checkRule).trans ?_
      simp only [solveRules, M.bind_run, hrule]
      simp [M.pure_run]
    rw [M.bind_ok (hq _)]
    by_cases hm : claimOf p (y, x) ∈ known <;> simp [hm, M.pure_run, dedupRows]
  show solveSingle.go (solverAt (modelOf (tellModules li l lf rels tables)) (n + 2)) (modelOf (tellModules li l lf rels tables)) _ "check_claim" [.var "Atom"] w = _
  simp only [solveSingle.go, show ("check_claim" : String) ≠ "$disjunction" by decide, if_false]
  rw [M.bind_ok hf]
  by_cases hm : claimOf p (y, x) ∈ known
  · simp only [hm, if_true]; rfl
  · simp only [hm, if_false]
    rw [resultsOf_one (args := [.var "Atom"]) (row := [.list [.tuple [.str p, .str x, .str y]]]) rfl w (b' := [("Atom", .list [.tuple [.str p, .str x, .str y]])]) (c := false) rfl]
    rfl

include S in
theorem keep_stored (w : W) (u : SimpleStore) : lf.get (l.put u w) = lf.get w := by
  have := S.apart w u (lf.get w)
  rw [lf.put_get] at this
  rw [this, lf.get_put]

include S in
theorem checked_here (ho : OnlyStored p rels tables) {w : W} (c : ChecksConverse p (li.get w)) {known : Query} (hko : KnownOk rels known)
    (hk : Represents (lf.get w) (recordsOf rels known)) (x y : String) (n : Nat) :
    Checked li l lf rels tables (n + 3) w [claimOf p (x, y)] (if claimOf p (y, x) ∈ known then [] else [[("Atom", toQuery [claimOf p (x, y)])]]) := by
  intro u
  exact check_here S ho (w := l.put u w) (by rw [S.keepL]; exact c) hko (by rw [keep_stored S]; exact hk) x y n

theorem claim_is_ok (ho : OnlyStored p rels tables) (c : String × String) : (⟨[], [claimOf p c]⟩ : Telling).Ok rels := by
  obtain ⟨c1, c2, hc⟩ := ho.columns
  refine ⟨by simp, by simp, by simp, fun a ha => ?_⟩
  rw [List.mem_singleton.1 ha]
  refine ⟨[c1, c2], hc, rfl, ?_⟩
  simp [claimOf, FlatValue, fillVar, Plain, Value.isVar, legal]

theorem claim_known (ho : OnlyStored p rels tables) {known : Query} (hko : KnownOk rels known) (c : String × String) :
    KnownOk rels (known ++ [claimOf p c]) := by
  have := told_ok (claim_is_ok ho c) hko
  simpa [Telling.told, claimOf, fillVar] using this

variable {wg : Grammar WriteSem} {yes no : WRule} {tyes tno : Str}

include S in
/-- **C110** In a session of claims about a relation, each claim gets the text for "impossible" if its converse was known before, and else the text for
"understand", and is known from then on. Nothing else changes, and no claim raises an exception. -/
theorem C110_session (ho : OnlyStored p rels tables) (hno : RepliesWith wg "impossible" no) (hln : TextRule no "impossible" tno)
    (hyes : RepliesWith wg "understand" yes) (hly : TextRule yes "understand" tyes) (n m : Nat) (cs : List (String × String)) :
    ∀ {known : Query} {w : W}, ChecksConverse p (li.get w) → l.get w = SimpleStore.clear → KnownOk rels known →
    Represents (lf.get w) (recordsOf rels known) →
    ∃ f, runClaims (solverAt (modelOf (tellModules li l lf rels tables)) (n + 5)) wg l (m + 1) p cs w =
        .ok (lf.put f w) (claimReplies p (String.ofList tno) (String.ofList tyes) known cs) ∧
      Represents f (recordsOf rels (knownAfter p known cs)) := by
  induction cs with
  | nil =>
    intro known w c he hko hk
    exact ⟨lf.get w, by rw [lf.put_get]; rfl, hk⟩
  | cons a cs ih =>
    intro known w c he hko hk
    have hcheck := checked_here S ho c hko hk a.1 a.2 n
    by_cases hm : claimOf p (a.2, a.1) ∈ known
    · simp only [hm, if_true] at hcheck
      obtain ⟨w2, h1, h2⟩ := C109_refused S ho.apart c.toCanClaim he hcheck hno hln m
      obtain ⟨f, h3, h4⟩ := ih c he hko hk
      refine ⟨f, ?_, by simpa [knownAfter, hm] using h4⟩
      simp only [runClaims]
      rw [M.bind_ok h1, M.bind_ok h2, M.bind_ok h3]
      simp [claimReplies, hm, M.pure_run]
    · simp only [hm, if_false] at hcheck
      obtain ⟨w2, f, h1, h2, h3⟩ := C109_accepted S ho.apart c.toCanClaim he (claim_is_ok ho a) hk hcheck hyes hly m
      have hclear : l.put SimpleStore.clear (lf.put f w) = lf.put f w := by rw [S.apart, ← he, l.put_get]
      obtain ⟨f', h4, h5⟩ := ih (known := known ++ [claimOf p a]) (w := lf.put f w) (by rw [S.keepF]; exact c) (by rw [← hclear, l.get_put])
        (claim_known ho hko a) (by rw [lf.get_put]; exact h3)
      rw [lf.put_put] at h4
      refine ⟨f', ?_, by simpa [knownAfter, hm] using h5⟩
      simp only [runClaims]
      rw [M.bind_ok h1, M.bind_ok h2, M.bind_ok h4]
      simp [claimReplies, hm, M.pure_run]

end

/-- What is known stays free of contradictions. -/
theorem knownAfter_antisymmetric {p : String} (cs : List (String × String)) : ∀ {known : Query}, Antisymmetric p known → Antisymmetric p (knownAfter p known cs) := by
  induction cs with
  | nil => intro known h; exact h
  | cons c cs ih =>
    intro known h
    simp only [knownAfter]
    split
    · exact ih h
    · rename_i hm
      refine ih fun x y hx hy => ?_
      simp only [List.mem_append, List.mem_singleton] at hx hy
      rcases hx with hx | hx <;> rcases hy with hy | hy
      · exact h x y hx hy
      · simp [claimOf] at hy; exact absurd (by rw [← hy.1, ← hy.2]; exact hx) hm
      · simp [claimOf] at hx; exact absurd (by rw [← hx.1, ← hx.2]; exact hy) hm
      · simp [claimOf] at hx hy; rw [hx.1, ← hy.1]

section
variable {li : Lens W InfState} {l lf : Lens W SimpleStore} {rels : Dict (List String)} {tables : List (Dict (List (List Value)))}
  {rs : List HornRule} {ar : String → Option Nat} (S : TellSystem li l lf rels tables rs ar) {p : String}
  {wg : Grammar WriteSem} {yes no : WRule} {tyes tno : Str}

theorem knownAfter_ok (ho : OnlyStored p rels tables) (cs : List (String × String)) : ∀ {known : Query}, KnownOk rels known → KnownOk rels (knownAfter p known cs) := by
  induction cs with
  | nil => intro known h; exact h
  | cons c cs ih =>
    intro known h
    simp only [knownAfter]
    split
    · exact ih h
    · exact ih (claim_known ho h c)

include S in
theorem stored_record {c1 c2 : String} (hc : rels.get p = some [c1, c2]) {known : Query} (hko : KnownOk rels known) {f : SimpleStore}
    (hk : Represents f (recordsOf rels known)) {x y : String} (h : [(c1, .str x), (c2, .str y)] ∈ (f.get p).getD []) : claimOf p (x, y) ∈ known := by
  have hn := S.columns p _ hc
  have hne : c1 ≠ c2 := by simpa using hn
  rw [hk p] at h
  obtain ⟨r, hr, e⟩ := List.mem_map.1 h
  obtain ⟨hr, ht⟩ := List.mem_filter.1 hr
  obtain ⟨a, ha, rfl⟩ := List.mem_map.1 hr
  simp only [decide_eq_true_eq] at ht
  obtain ⟨q, vs⟩ := a
  dsimp only at ht e
  subst ht
  obtain ⟨cs, h3, h4, h5⟩ := hko _ ha
  have : cs = [c1, c2] := by rw [hc] at h3; exact (Option.some.inj h3).symm
  subst this
  match vs, h4, h5 with
  | [v1, v2], _, h5 =>
    have n1 : v1 ≠ .none := (h5 v1 (by simp)).1
    have n2 : v2 ≠ .none := (h5 v2 (by simp)).1
    simp [hc, createDict, createDictFrom, Dict.set, hne, n1, n2] at e
    rw [e.1, e.2] at ha
    exact ha

include S in
/-- **C110** However many claims are made, the memory module never holds a fact and its converse for two different names, if it did not at the start. -/
theorem C110_consistent (ho : OnlyStored p rels tables) (hno : RepliesWith wg "impossible" no) (hln : TextRule no "impossible" tno)
    (hyes : RepliesWith wg "understand" yes) (hly : TextRule yes "understand" tyes) {known : Query} {w w' : W} (c : ChecksConverse p (li.get w))
    (he : l.get w = SimpleStore.clear) (hko : KnownOk rels known) (hk : Represents (lf.get w) (recordsOf rels known)) (ha : Antisymmetric p known)
    {c1 c2 : String} (hc : rels.get p = some [c1, c2]) {n m : Nat} {cs : List (String × String)} {replies : List Value}
    (h : runClaims (solverAt (modelOf (tellModules li l lf rels tables)) (n + 5)) wg l (m + 1) p cs w = .ok w' replies) (x y : String)
    (hx : [(c1, .str x), (c2, .str y)] ∈ ((lf.get w').get p).getD []) (hy : [(c1, .str y), (c2, .str x)] ∈ ((lf.get w').get p).getD []) : x = y := by
  obtain ⟨f, h1, h2⟩ := C110_session S ho hno hln hyes hly n m cs c he hko hk
  rw [h1] at h
  simp only [Res.ok.injEq] at h
  rw [← h.1, lf.get_put] at hx hy
  have hok := knownAfter_ok ho cs hko
  exact knownAfter_antisymmetric cs ha x y (stored_record S hc hok h2 hx) (stored_record S hc hok h2 hy)

end

/-! ## A case -/

namespace Ex

/-- The relation of the memory module. -/
def placeRels : Dict (List String) := [("left_of", ["left", "right"])]

/-- An inference module with the rules for claims and the check, an empty output buffer and a memory module without facts. -/
def placer : Listener :=
  ({ relations := [("learn_rule", .learnRule), ("intent_claim", .handleRule), ("check_claim", .handleRule)]
     rules := [("intent_claim", [refuseRule, acceptRule]), ("check_claim", [converseCheck "left_of"])] }, SimpleStore.clear, SimpleStore.clear)

theorem placer_inserted : insertAll [refuseRule, acceptRule, converseCheck "left_of"] InfState.init = .ok (listenerInf.get placer) := by decide +kernel

theorem placer_checks : ChecksConverse "left_of" (listenerInf.get placer) := by
  refine { intent := rfl, rule := rfl, free := ?_, freeNot := rfl, check := rfl, checkRule := rfl, freeP := rfl, freeDestructure := rfl }
  rintro p (rfl | rfl | h)
  · rfl
  · rfl
  · have : p ≠ "learn_rule" ∧ p ≠ "intent_claim" ∧ p ≠ "check_claim" := by
      refine ⟨?_, ?_, ?_⟩ <;> rintro rfl <;> revert h <;> decide
    simp [listenerInf, placer, Dict.get, this.1.symm, this.2.1.symm, this.2.2.symm]

theorem placer_stored : OnlyStored "left_of" placeRels [family] := by
  refine ⟨⟨rfl, fun db hdb => ?_⟩, ⟨_, _, rfl⟩, rfl, fun db hdb => ?_⟩ <;> rw [List.mem_singleton.1 hdb]
  · exact ⟨rfl, rfl⟩
  · exact ⟨rfl, rfl, rfl⟩

theorem placer_system : TellSystem listenerInf listenerOut listenerFacts placeRels [family] [] (fun _ => none) := by
  refine ⟨fun _ _ _ => rfl, fun _ _ => rfl, fun _ _ => rfl, ⟨by decide, by decide, fun p f hf => ?_⟩, fun p cs h => ?_, fun p hp => ⟨?_, ?_, by simp, rfl⟩,
    ⟨⟨rfl, rfl, fun _ _ _ => rfl⟩, by simp, by simp, by simp⟩, by simp⟩
  · have hne : p ≠ "left_of" := by rintro rfl; simp [coreTable, Dict.get] at hf
    simp [placeRels, Dict.get, hne.symm]
  · simp only [placeRels, Dict.get_cons, Dict.get_nil] at h
    split at h
    · cases h; decide
    · cases h
  · have hne : p ≠ "left_of" := by rintro rfl; revert hp; simp [Taken]; decide
    simp [placeRels, Dict.get, hne.symm]
  · intro db hdb
    rw [List.mem_singleton.1 hdb]
    simp [family, Dict.get, (taken_ne hp).1.symm]

/-- The third claim is the converse of the first. The check sees only what is stored, not what follows from it: the claims make a circle. -/
def placeClaims : List (String × String) := [("book", "phone"), ("phone", "pad"), ("phone", "book"), ("pad", "book")]

theorem placer_run : runClaims (solverAt (modelOf (tellModules listenerInf listenerOut listenerFacts placeRels [family])) (0 + 5))
      (claimWrite fun _ _ => 0) listenerOut (0 + 1) "left_of" placeClaims placer =
    .ok (listenerFacts.put [("left_of", [[("left", .str "book"), ("right", .str "phone")], [("left", .str "phone"), ("right", .str "pad")],
        [("left", .str "pad"), ("right", .str "book")]])] placer)
      [.str "I understand", .str "I understand", .str "The above statement is impossible", .str "I understand"] := by
  decide +kernel

/-- The hypotheses of the theorems are met by it. -/
example : ∃ f, runClaims (solverAt (modelOf (tellModules listenerInf listenerOut listenerFacts placeRels [family])) (0 + 5))
      (claimWrite fun _ _ => 0) listenerOut (0 + 1) "left_of" placeClaims placer =
        .ok (listenerFacts.put f placer) (claimReplies "left_of" (String.ofList "The above statement is impossible".toList)
          (String.ofList "I understand".toList) [] placeClaims) ∧
      Represents f (recordsOf placeRels (knownAfter "left_of" [] placeClaims)) :=
  C110_session placer_system placer_stored (claimWrite_rules _).1 ⟨rfl, rfl, by rintro f ⟨a, h1, h2⟩; cases h1; cases h2⟩
    (claimWrite_rules _).2 ⟨rfl, rfl, by rintro f ⟨a, h1, h2⟩; cases h1; cases h2⟩ 0 0 placeClaims placer_checks rfl (by simp [KnownOk]) (by intro t; rfl)

example (x y : String) (hx : [("left", .str x), ("right", .str y)] ∈ [[("left", Value.str "book"), ("right", .str "phone")],
      [("left", .str "phone"), ("right", .str "pad")], [("left", .str "pad"), ("right", .str "book")]])
    (hy : [("left", .str y), ("right", .str x)] ∈ [[("left", Value.str "book"), ("right", .str "phone")],
      [("left", .str "phone"), ("right", .str "pad")], [("left", .str "pad"), ("right", .str "book")]]) : x = y :=
  C110_consistent placer_system placer_stored (claimWrite_rules _).1 ⟨rfl, rfl, by rintro f ⟨a, h1, h2⟩; cases h1; cases h2⟩
    (claimWrite_rules _).2 ⟨rfl, rfl, by rintro f ⟨a, h1, h2⟩; cases h1; cases h2⟩ placer_checks rfl (known := []) (by simp [KnownOk]) (by intro t; rfl)
    (by simp [Antisymmetric]) rfl placer_run x y hx hy

end Ex

end Verif
