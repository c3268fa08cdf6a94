import Verif.Props.Claims

/-!
# C111: the reply to a question with several cases
-/

namespace Verif

variable {W : Type}

/-! ## Specification -/

/-- A case of an intent: conditions, and the type of the reply. -/
structure Case where
  conds : List Value
  type : String

/-- `conditions, store(output_type(type))` -/
def Case.query (c : Case) : Value := .list (c.conds ++ [storeType c.type])

/-- `( case ; case ; ... )`, as in `tests/integration/sir/intents.pl:5-27` -/
def casesQuery (cs : List Case) : Value := .list [.tuple [.str "$disjunction", .list (cs.map Case.query)]]

/-- Whether the conditions have an answer, one after the other: each condition returns, leaves the world alone, and does not depend on the output buffer. -/
inductive CondYields (ms : List (Module W)) (n : Nat) (l : Lens W SimpleStore) (w : W) : List Value → Binding → Bool → Prop
  | nil (b : Binding) : CondYields ms n l w [] b true
  | cons (a : Value) (as : List Value) (b : Binding) (bs : List Binding) (f : Binding → Bool)
      (h : ∀ u, (solverAt (modelOf ms) n).solve (.list [a]) b (l.put u w) = .ok (l.put u w) (.rows bs))
      (hs : ∀ b' ∈ bs, CondYields ms n l w as b' (f b')) : CondYields ms n l w (a :: as) b (bs.any f)

/-- The buffer holds the type any number of times. -/
def Holding (t : String) (k : Nat) (u : SimpleStore) : Prop := Represents u (stored (List.replicate k ("output_type", [.str t])))

/-- The question is for an intent with cases as its one rule; `text` is the text for the first case that applies to its values. -/
structure FirstText (ms : List (Module W)) (n : Nat) (l : Lens W SimpleStore) (g : W → InfState) (wg : Grammar WriteSem) (w : W) (q : String × List Value)
    (xs : List String) (pre post : List Case) (c : Case) (rule : WRule) (text : Str) : Prop where
  intent : IntentIn ms w g q.1 ⟨.str q.1 :: xs.map .var, casesQuery (pre ++ c :: post)⟩
  nodup : xs.Nodup
  arity : q.2.length = xs.length
  values : ∀ a ∈ q.2, a.isVar = false
  name : q.1 ≠ "$disjunction"
  before : ∀ d ∈ pre, CondYields ms n l w d.conds (xs.zip q.2) false
  here : CondYields ms n l w c.conds (xs.zip q.2) true
  replies : RepliesWith wg c.type rule
  says : TextRule rule c.type text

/-- The questions one after the other: the meaning of each is solved and a reply is generated. -/
def runQuestions (solver : SolverApi W) (wg : Grammar WriteSem) (l : Lens W SimpleStore) (m : Nat) : List (String × List Value) → M W (List Value)
  | [] => pure []
  | q :: qs => do
    let _ ← solver.solve (.list [.tuple (.str q.1 :: q.2)]) []
    let reply ← generateOutput solver wg l m
    let replies ← runQuestions solver wg l m qs
    pure (reply :: replies)

/-! ## A case -/

theorem foldl_addNew_ne (rs : List Binding) : ∀ acc : List Binding, acc ≠ [] → rs.foldl addNew acc ≠ [] := by
  induction rs with
  | nil => intro acc h; exact h
  | cons r rs ih =>
    intro acc h
    refine ih _ ?_
    unfold addNew
    split
    · exact h
    · simp

theorem foldl_addNew_ne' {rs : List Binding} (h : rs ≠ []) (acc : List Binding) : rs.foldl addNew acc ≠ [] := by
  cases rs with
  | nil => exact absurd rfl h
  | cons r rs =>
    refine foldl_addNew_ne rs _ ?_
    unfold addNew
    split
    · rename_i h; intro e; rw [e] at h; simp at h
    · simp

section
variable {ms : List (Module W)} {l : Lens W SimpleStore} {w : W} {n : Nat}

theorem put_same (l : Lens W SimpleStore) (w : W) (u : SimpleStore) : ∀ u', l.put u' (l.put u w) = l.put u' w := fun u1 => l.put_put u1 u w

theorem store_more (hm : StoresIn ms l outputRelations w) (t : String) {k : Nat} {u : SimpleStore} (hu : Holding t k u) (b : Binding) :
    ∃ u', (solverAt (modelOf ms) (n + 2)).solve (.list [storeType t]) b (l.put u w) = .ok (l.put u' w) (.rows [b]) ∧ Holding t (k + 1) u' := by
  have hm' := hm.congr (put_same l w u)
  have h1 := C18_store hm' (atoms := [("output_type", [.str t])]) (by intro a ha; rw [List.mem_singleton.1 ha]; exact (by decide +kernel : outputRelations.has "output_type" = true)) b n
  obtain ⟨u', hu'⟩ := storeAll_put l outputRelations b [("output_type", [.str t])] (l.put u w)
  have h2 := storeAll_represents l outputRelations b [("output_type", [.str t])] (l.put u w) (log := stored (List.replicate k ("output_type", [.str t])))
    (by rw [l.get_put]; exact hu)
  rw [hu', l.put_put] at h1 h2
  rw [l.get_put] at h2
  refine ⟨u', h1, ?_⟩
  unfold Holding
  rw [List.replicate_succ']
  simpa [stored, bindVars] using h2

theorem case_run (hm : StoresIn ms l outputRelations w) (t : String) {as : List Value} {b : Binding} {ok : Bool} (h : CondYields ms (n + 2) l w as b ok) :
    ∀ {k : Nat} {u : SimpleStore}, Holding t k u →
    ∃ u' k' bs, (solverAt (modelOf ms) (n + 2)).solve (.list (as ++ [storeType t])) b (l.put u w) = .ok (l.put u' w) (.rows bs) ∧ Holding t k' u' ∧
      (ok = false → u' = u ∧ bs = []) ∧ (ok = true → 0 < k' ∧ bs ≠ []) ∧ k ≤ k' := by
  induction h with
  | nil b =>
    intro k u hu
    obtain ⟨u', h1, h2⟩ := store_more (n := n) hm t hu b
    exact ⟨u', k + 1, [b], h1, h2, by simp, by simp, by omega⟩
  | cons a as b bs f h hs ih =>
    intro k u hu
    obtain ⟨a2, rest, e⟩ : ∃ a2 rest, as ++ [storeType t] = a2 :: rest := by
      cases as with
      | nil => exact ⟨_, _, rfl⟩
      | cons a2 as => exact ⟨_, _, rfl⟩
    have key : ∀ (bs' : List Binding), (∀ b' ∈ bs', b' ∈ bs) → ∀ (acc : List Binding) {k : Nat} {u : SimpleStore}, Holding t k u →
        ∃ u' k' out, collect (solveAtoms (solverAt (modelOf ms) (n + 1)) (modelOf ms) (a2 :: rest)) bs' acc (l.put u w) = .ok (l.put u' w) (.rows out) ∧
          Holding t k' u' ∧ (bs'.any f = false → u' = u ∧ out = acc) ∧ (bs'.any f = true → 0 < k' ∧ out ≠ []) ∧ k ≤ k' ∧ (acc ≠ [] → out ≠ []) := by
      intro bs'
      induction bs' with
      | nil => intro _ acc k u hu; exact ⟨u, k, acc, rfl, hu, by simp, by simp, Nat.le_refl _, id⟩
      | cons b' bs' ih' =>
        intro hsub acc k u hu
        obtain ⟨u1, k1, r1, h1, h2, h3, h4, h5⟩ := ih b' (hsub b' List.mem_cons_self) hu
        rw [e] at h1
        obtain ⟨u2, k2, r2, g1, g2, g3, g4, g5, g6⟩ := ih' (fun b hb => hsub b (List.mem_cons_of_mem _ hb)) (r1.foldl addNew acc) h2
        refine ⟨u2, k2, r2, ?_, g2, ?_, ?_, Nat.le_trans h5 g5, fun hacc => g6 (foldl_addNew_ne _ _ hacc)⟩
        · rw [collect, M.bind_ok (show solveAtoms (solverAt (modelOf ms) (n + 1)) (modelOf ms) (a2 :: rest) b' (l.put u w) = _ from h1)]
          exact g1
        · intro hf
          simp only [List.any_cons, Bool.or_eq_false_iff] at hf
          obtain ⟨rfl, rfl⟩ := h3 hf.1
          exact g3 hf.2
        · intro hf
          simp only [List.any_cons, Bool.or_eq_true] at hf
          rcases hf with hf | hf
          · obtain ⟨p1, p2⟩ := h4 hf
            exact ⟨Nat.lt_of_lt_of_le p1 g5, g6 (foldl_addNew_ne' p2 _)⟩
          · exact g4 hf
    obtain ⟨u', k', out, h1, h2, h3, h4, h5, _⟩ := key bs (fun _ hb => hb) [] hu
    refine ⟨u', k', out, ?_, h2, h3, h4, h5⟩
    show solveAtoms (solverAt (modelOf ms) (n + 1)) (modelOf ms) (a :: (as ++ [storeType t])) b (l.put u w) = _
    rw [e, solveAtoms, M.bind_ok (show solveSingle (solverAt (modelOf ms) (n + 1)) (modelOf ms) a b (l.put u w) = .ok (l.put u w) (.rows bs) from h u)]
    exact h1

variable {wg : Grammar WriteSem} {rule : WRule} {text : Str} {k : Nat}

theorem holding_reply (hm : StoresIn ms l outputRelations w) {t : String} {j : Nat} (hj : 0 < j) (hw : Holding t j (l.get w))
    (hrule : RepliesWith wg t rule) (hl : TextRule rule t text) (n : Nat) :
    generateOutput (solverAt (modelOf ms) (k + 1)) wg l (n + 1) w = .ok (l.put SimpleStore.clear w) (.str (String.ofList text)) := by
  have hlog : BufferOk (stored (List.replicate j ("output_type", [.str t]))) := by
    refine bufferOk_stored fun a ha => ?_
    rw [List.eq_of_mem_replicate ha]
    exact ⟨["type"], (by decide +kernel : outputRelations.get "output_type" = some ["type"]), by decide, rfl, by simp; exact ⟨by simp, rfl, rfl⟩⟩
  have hty : ∀ t', IsStored (stored (List.replicate j ("output_type", [.str t]))) "output_type" [.str t'] ↔ t' = t := by
    intro t'
    simp only [IsStored, stored, List.mem_map]
    constructor
    · rintro ⟨r, ⟨a, ha, rfl⟩, _, h2⟩
      rw [List.eq_of_mem_replicate ha] at h2
      simpa using h2.symm
    · rintro rfl
      exact ⟨_, ⟨_, List.mem_replicate.2 ⟨by omega, rfl⟩, rfl⟩, rfl, rfl⟩
  have hc : CondHolds (solverAt (modelOf ms) (k + 1)) [] w rule [] := by
    have h0 : anteBinding rule.ante.args [] = [] := by simp [anteBinding]
    have hcond := hl.condition
    unfold ForType at hcond
    rcases type_condition hm hw hlog t k with ⟨h, _⟩ | ⟨_, h⟩
    · exact .inr ⟨by simp [hcond], [], by rw [h0, hcond]; exact h⟩
    · exact absurd ((hty t).2 rfl) h
  have hf := reply_found hm hw hlog (fun t' h => (hty t').1 h) hrule hc
  have hwords : genWords (genNode (solverAt (modelOf ms) (k + 1)) wg n) rule [] rule.cons [rule.hash] w =
      .ok w ([rule.hash], [.str (String.ofList text)]) := by
    rw [hl.cons, genWords]
    rfl
  have := generate_of_node (l := l) (genNode_words hf n hwords (parts_no_post.2 hl.post))
  rw [this, combineWords_one]

theorem cases_none (hm : StoresIn ms l outputRelations w) (he : l.get w = SimpleStore.clear) {b : Binding} {cs : List Case}
    (h : ∀ c ∈ cs, CondYields ms (n + 2) l w c.conds b false) : NoAnswers (modelOf ms) (n + 2) b (cs.map Case.query) w w := by
  induction cs with
  | nil => exact .nil _
  | cons c cs ih =>
    obtain ⟨u', k', bs, h1, _, h3, _, _⟩ := case_run hm c.type (h c List.mem_cons_self) (k := 0) (u := SimpleStore.clear) (by intro t; rfl)
    obtain ⟨rfl, rfl⟩ := h3 rfl
    rw [← he, l.put_get] at h1
    exact .cons _ _ _ _ _ (.rows []) h1 rfl (ih fun c hc => h c (List.mem_cons_of_mem _ hc))

/-- **C111** The reply to a question with several cases is the text for the first case whose conditions have an answer, however many answers they have;
afterwards nothing has changed. -/
theorem C111_cases (hm : StoresIn ms l outputRelations w) (he : l.get w = SimpleStore.clear) {b : Binding} {pre post : List Case} {c : Case}
    (hpre : ∀ d ∈ pre, CondYields ms (n + 2) l w d.conds b false) (hc : CondYields ms (n + 2) l w c.conds b true)
    (hrule : RepliesWith wg c.type rule) (hl : TextRule rule c.type text) (k m : Nat) :
    ∃ w2 bs, (solverAt (modelOf ms) (n + 3)).solve (casesQuery (pre ++ c :: post)) b w = .ok w2 (.rows bs) ∧ bs ≠ [] ∧
      generateOutput (solverAt (modelOf ms) (k + 1)) wg l (m + 1) w2 = .ok w (.str (String.ofList text)) := by
  obtain ⟨u', k', bs, h1, h2, _, h4, _⟩ := case_run hm c.type hc (k := 0) (u := SimpleStore.clear) (by intro t; rfl)
  obtain ⟨h5, h6⟩ := h4 rfl
  have hw : l.put SimpleStore.clear w = w := by rw [← he, l.put_get]
  rw [hw] at h1
  refine ⟨l.put u' w, bs, ?_, h6, ?_⟩
  · refine (C12_disjunction_first_success (modelOf ms) (n + 2) b _ w _ _).2 (.inr ⟨pre.map Case.query, c.query, post.map Case.query, w, by simp, cases_none hm he hpre, h1, ?_⟩)
    exact List.length_pos_iff.2 h6
  · rw [holding_reply (hm.congr (put_same l w u')) h5 (by rw [l.get_put]; exact h2) hrule hl (k := k) m, l.put_put, hw]

/-- **C111** If no case applies nothing is said: there are no answers, nothing has changed, and generating the reply raises an exception. -/
theorem C111_no_case (hm : StoresIn ms l outputRelations w) (he : l.get w = SimpleStore.clear) {b : Binding} {cs : List Case}
    (h : ∀ d ∈ cs, CondYields ms (n + 2) l w d.conds b false) (hall : ∀ r ∈ wg.findRules ['s'] 0, ∃ t more, ForType r t more) (k m : Nat) :
    (solverAt (modelOf ms) (n + 3)).solve (casesQuery cs) b w = .ok w (.rows []) ∧
      generateOutput (solverAt (modelOf ms) (k + 1)) wg l (m + 1) w = .err w (.exception "No rule found") :=
  ⟨(C12_disjunction_first_success (modelOf ms) (n + 2) b _ w _ _).2 (.inl ⟨rfl, cases_none hm he h⟩), reply_none hm he hall m⟩

variable {g : W → InfState} {p : String} {xs : List String} {args : List Value}

/-- **C111** The same for a sentence with an intent whose rule has the cases as its body: the reply is the text for the first case that applies with the
values of the sentence; if there is none, an exception is raised. -/
theorem C111_intent {cs : List Case} (hi : IntentIn ms w g p ⟨.str p :: xs.map .var, casesQuery cs⟩) (hnd : xs.Nodup) (hlen : args.length = xs.length)
    (hargs : ∀ a ∈ args, a.isVar = false) (hp : p ≠ "$disjunction") (hm : StoresIn ms l outputRelations w) (he : l.get w = SimpleStore.clear) (m : Nat) :
    (∀ {pre post : List Case} {c : Case}, cs = pre ++ c :: post → (∀ d ∈ pre, CondYields ms (n + 2) l w d.conds (xs.zip args) false) →
      CondYields ms (n + 2) l w c.conds (xs.zip args) true → ∀ {rule : WRule} {text : Str}, RepliesWith wg c.type rule → TextRule rule c.type text →
      ∃ w2, (solverAt (modelOf ms) (n + 4)).solve (.list [.tuple (.str p :: args)]) [] w = .ok w2 (.rows [[]]) ∧
        generateOutput (solverAt (modelOf ms) (n + 4)) wg l (m + 1) w2 = .ok w (.str (String.ofList text))) ∧
    ((∀ d ∈ cs, CondYields ms (n + 2) l w d.conds (xs.zip args) false) → (∀ r ∈ wg.findRules ['s'] 0, ∃ t more, ForType r t more) →
      (solverAt (modelOf ms) (n + 4)).solve (.list [.tuple (.str p :: args)]) [] w = .ok w (.rows []) ∧
        generateOutput (solverAt (modelOf ms) (n + 4)) wg l (m + 1) w = .err w (.exception "No rule found")) := by
  obtain ⟨i1, _, _⟩ := intent_step (n := n + 3) hi (xs := xs) (args := args) rfl hnd hlen hargs hp rfl
  constructor
  · intro pre post c e hpre hc rule text hrule hl
    subst e
    obtain ⟨w2, bs, h1, h2, h3⟩ := C111_cases (post := post) hm he hpre hc hrule hl (n + 3) m
    refine ⟨w2, ?_, h3⟩
    have := i1 _ _ h1
    rwa [show bs.isEmpty = false by cases bs <;> simp_all] at this
  · intro h hall
    obtain ⟨h1, h2⟩ := C111_no_case hm he h hall (n + 3) m
    exact ⟨i1 _ _ h1, h2⟩

/-- **C111** In a session of such questions each gets the text for its own first case, whatever was asked before it; at the end nothing has changed. -/
theorem C111_session (hm : StoresIn ms l outputRelations w) (he : l.get w = SimpleStore.clear) (m : Nat) (qs : List ((String × List Value) × Str))
    (h : ∀ q ∈ qs, ∃ xs pre post c rule, FirstText ms (n + 2) l g wg w q.1 xs pre post c rule q.2) :
    runQuestions (solverAt (modelOf ms) (n + 4)) wg l (m + 1) (qs.map (·.1)) w = .ok w (qs.map fun q => .str (String.ofList q.2)) := by
  induction qs with
  | nil => rfl
  | cons q qs ih =>
    obtain ⟨xs, pre, post, c, rule, f⟩ := h q List.mem_cons_self
    have ih := ih fun q hq => h q (List.mem_cons_of_mem _ hq)
    obtain ⟨w2, h1, h2⟩ := (C111_intent f.intent f.nodup f.arity f.values f.name hm he m).1 rfl f.before f.here f.replies f.says
    simp only [List.map_cons, runQuestions]
    rw [M.bind_ok h1, M.bind_ok h2, M.bind_ok ih]
    rfl

end

/-! ## Examples -/

namespace Ex

/-- Is `A` a parent of `B`? Or has anyone a grandchild? Or are they the same? -/
def parentCases : List Case :=
  [⟨[.tuple [.str "parent", .var "A", .var "B"]], "yes"⟩,
   ⟨[.tuple [.str "parent", .var "C", .var "D"], .tuple [.str "parent", .var "D", .var "E"]], "sometimes"⟩,
   ⟨[.tuple [.str "equals", .var "A", .var "B"]], "same"⟩]

/-- Texts for the types of reply (`tests/integration/sir/write_grammar.py:29-36`, in the other order). -/
def casesWrite (H : Constituent → List Constituent → Nat) : Grammar WriteSem :=
  [(['s'], [(0, [sayRule H "yes" "Yes".toList, sayRule H "sometimes" "Sometimes".toList])])]

theorem casesWrite_sometimes (H : Constituent → List Constituent → Nat) : RepliesWith (casesWrite H) "sometimes" (sayRule H "sometimes" "Sometimes".toList) := by
  refine ⟨[_], _, rfl, ?_⟩
  intro r hr
  rw [List.mem_singleton.1 hr]
  exact ⟨_, _, by decide, rfl⟩

theorem casesWrite_types (H : Constituent → List Constituent → Nat) : ∀ r ∈ (casesWrite H).findRules ['s'] 0, ∃ t more, ForType r t more := by
  intro r hr
  have : (casesWrite H).findRules ['s'] 0 = [sayRule H "yes" "Yes".toList, sayRule H "sometimes" "Sometimes".toList] := rfl
  rw [this] at hr
  simp only [List.mem_cons, List.not_mem_nil, or_false] at hr
  rcases hr with rfl | rfl <;> exact ⟨_, [], rfl⟩

abbrev caseModules : List (Module Listener) := tellModules listenerInf listenerOut listenerFacts listenerRels [family]

theorem case_stores : StoresIn caseModules listenerOut outputRelations claimer := listener_system.stores claimer_can.free

def annZed : Binding := [("A", .str "ann"), ("B", .str "zed")]
def zedAnn : Binding := [("A", .str "zed"), ("B", .str "ann")]

theorem not_parent (b : Binding) (h : b = annZed ∨ b = zedAnn) :
    CondYields caseModules 3 listenerOut claimer [.tuple [.str "parent", .var "A", .var "B"]] b false := by
  rcases h with rfl | rfl <;> exact .cons _ _ _ [] (fun _ => true) (fun u => rfl) (by simp)

/-- Three pairs of a parent and a child, and two of the children have a child. -/
theorem has_grandchild : CondYields caseModules 3 listenerOut claimer
    [.tuple [.str "parent", .var "C", .var "D"], .tuple [.str "parent", .var "D", .var "E"]] annZed true := by
  have e : ([annZed ++ [("C", .str "ann"), ("D", .str "bob")], annZed ++ [("C", .str "bob"), ("D", .str "cas")],
      annZed ++ [("C", .str "cas"), ("D", .str "dan")]] : List Binding).any (fun b => decide (b.get "D" ≠ some (.str "dan"))) = true := by decide +kernel
  rw [← e]
  refine .cons _ _ _ _ _ (fun u => rfl) ?_
  intro b hb
  simp only [List.mem_cons, List.not_mem_nil, or_false] at hb
  rcases hb with rfl | rfl | rfl
  · exact .cons _ _ _ [annZed ++ [("C", .str "ann"), ("D", .str "bob"), ("E", .str "cas")]] (fun _ => true) (fun u => rfl) (fun b _ => .nil b)
  · exact .cons _ _ _ [annZed ++ [("C", .str "bob"), ("D", .str "cas"), ("E", .str "dan")]] (fun _ => true) (fun u => rfl) (fun b _ => .nil b)
  · exact .cons _ _ _ [] (fun _ => true) (fun u => rfl) (by simp)

/-- The second case is the first that applies. -/
example (H : Constituent → List Constituent → Nat) (m : Nat) : ∃ w2 bs,
    (solverAt (modelOf caseModules) 4).solve (casesQuery parentCases) annZed claimer = .ok w2 (.rows bs) ∧ bs ≠ [] ∧
      generateOutput (solverAt (modelOf caseModules) 4) (casesWrite H) listenerOut (m + 1) w2 = .ok claimer (.str (String.ofList "Sometimes".toList)) :=
  C111_cases (pre := parentCases.take 1) (post := parentCases.drop 2) (c := ⟨_, "sometimes"⟩) case_stores rfl
    (fun d hd => by rw [List.mem_singleton.1 hd]; exact not_parent _ (.inl rfl)) has_grandchild (casesWrite_sometimes H)
    ⟨rfl, rfl, by rintro f ⟨a, h1, h2⟩; cases h1; cases h2⟩ 3 m

/-- Neither the first nor the last case applies. -/
example (H : Constituent → List Constituent → Nat) (m : Nat) :
    (solverAt (modelOf caseModules) 4).solve (casesQuery [parentCases[0], parentCases[2]]) zedAnn claimer = .ok claimer (.rows []) ∧
      generateOutput (solverAt (modelOf caseModules) 4) (casesWrite H) listenerOut (m + 1) claimer = .err claimer (.exception "No rule found") := by
  refine C111_no_case case_stores rfl (fun d hd => ?_) (casesWrite_types H) 3 m
  simp only [List.mem_cons, List.not_mem_nil, or_false] at hd
  rcases hd with rfl | rfl
  · exact not_parent _ (.inr rfl)
  · exact .cons _ _ _ [] (fun _ => true) (fun u => rfl) (by simp)

/-- `intent_parent(A, B) :- ( cases ).` -/
def parentIntent : Rule := ⟨[.str "intent_parent", .var "A", .var "B"], casesQuery parentCases⟩

/-- The world after this rule has been loaded (`import_rules`, `richard/module/InferenceModule.py:33-42`; see `caser_inserted`). -/
def caser : Listener :=
  ({ relations := [("learn_rule", .learnRule), ("intent_parent", .handleRule)], rules := [("intent_parent", [parentIntent])] }, SimpleStore.clear, SimpleStore.clear)

theorem caser_inserted : insertAll [parentIntent] InfState.init = .ok (listenerInf.get caser) := by decide +kernel

theorem caser_intent : IntentIn caseModules caser listenerInf.get "intent_parent" parentIntent := ⟨rfl, rfl⟩

theorem caser_stores : StoresIn caseModules listenerOut outputRelations caser := by
  refine listener_system.stores ?_
  rintro p (rfl | rfl | h)
  · rfl
  · rfl
  · have : p ≠ "learn_rule" ∧ p ≠ "intent_parent" := by
      refine ⟨?_, ?_⟩ <;> rintro rfl <;> revert h <;> decide
    simp [listenerInf, caser, Dict.get, this.1.symm, this.2.symm]

/-- The same in this world. -/
theorem caser_grandchild : CondYields caseModules 3 listenerOut caser
    [.tuple [.str "parent", .var "C", .var "D"], .tuple [.str "parent", .var "D", .var "E"]] annZed true := by
  have e : ([annZed ++ [("C", .str "ann"), ("D", .str "bob")], annZed ++ [("C", .str "bob"), ("D", .str "cas")],
      annZed ++ [("C", .str "cas"), ("D", .str "dan")]] : List Binding).any (fun b => decide (b.get "D" ≠ some (.str "dan"))) = true := by decide +kernel
  rw [← e]
  refine .cons _ _ _ _ _ (fun u => rfl) ?_
  intro b hb
  simp only [List.mem_cons, List.not_mem_nil, or_false] at hb
  rcases hb with rfl | rfl | rfl
  · exact .cons _ _ _ [annZed ++ [("C", .str "ann"), ("D", .str "bob"), ("E", .str "cas")]] (fun _ => true) (fun u => rfl) (fun b _ => .nil b)
  · exact .cons _ _ _ [annZed ++ [("C", .str "bob"), ("D", .str "cas"), ("E", .str "dan")]] (fun _ => true) (fun u => rfl) (fun b _ => .nil b)
  · exact .cons _ _ _ [] (fun _ => true) (fun u => rfl) (by simp)

/-- "Is ann a parent of bob?" -/
example (H : Constituent → List Constituent → Nat) (m : Nat) : ∃ w2,
    (solverAt (modelOf caseModules) 5).solve (.list [.tuple [.str "intent_parent", .str "ann", .str "bob"]]) [] caser = .ok w2 (.rows [[]]) ∧
      generateOutput (solverAt (modelOf caseModules) 5) (casesWrite H) listenerOut (m + 1) w2 = .ok caser (.str (String.ofList "Yes".toList)) :=
  (C111_intent (n := 1) (g := listenerInf.get) (xs := ["A", "B"]) (args := [.str "ann", .str "bob"]) (cs := parentCases) caser_intent (by decide) rfl
    (values_two rfl rfl) (by decide) caser_stores rfl m).1 (pre := []) (c := ⟨_, "yes"⟩) rfl (by simp)
    (.cons _ _ _ [[("A", .str "ann"), ("B", .str "bob")]] (fun _ => true) (fun u => rfl) (fun b _ => .nil b)) ⟨[], _, rfl, by simp⟩
    ⟨rfl, rfl, by rintro f ⟨a, h1, h2⟩; cases h1; cases h2⟩

/-- "Is ann a parent of bob? Is ann a parent of zed? Is bob a parent of cas?" -/
example (H : Constituent → List Constituent → Nat) (m : Nat) :
    runQuestions (solverAt (modelOf caseModules) 5) (casesWrite H) listenerOut (m + 1)
      [("intent_parent", [.str "ann", .str "bob"]), ("intent_parent", [.str "ann", .str "zed"]), ("intent_parent", [.str "bob", .str "cas"])] caser =
      .ok caser [.str (String.ofList "Yes".toList), .str (String.ofList "Sometimes".toList), .str (String.ofList "Yes".toList)] := by
  refine C111_session (n := 1) (g := listenerInf.get) caser_stores rfl m [(("intent_parent", [.str "ann", .str "bob"]), "Yes".toList),
    (("intent_parent", [.str "ann", .str "zed"]), "Sometimes".toList), (("intent_parent", [.str "bob", .str "cas"]), "Yes".toList)] ?_
  intro q hq
  simp only [List.mem_cons, List.not_mem_nil, or_false] at hq
  rcases hq with rfl | rfl | rfl
  · exact ⟨["A", "B"], [], parentCases.drop 1, ⟨_, "yes"⟩, _, caser_intent, by decide, rfl, values_two rfl rfl, by decide, by simp,
      .cons _ _ _ [[("A", .str "ann"), ("B", .str "bob")]] (fun _ => true) (fun u => rfl) (fun b _ => .nil b), ⟨[], _, rfl, by simp⟩,
      ⟨rfl, rfl, by rintro f ⟨a, h1, h2⟩; cases h1; cases h2⟩⟩
  · exact ⟨["A", "B"], parentCases.take 1, parentCases.drop 2, ⟨_, "sometimes"⟩, _, caser_intent, by decide, rfl, values_two rfl rfl, by decide,
      (fun d hd => by rw [List.mem_singleton.1 hd]; exact .cons _ _ _ [] (fun _ => true) (fun u => rfl) (by simp)), caser_grandchild, casesWrite_sometimes H,
      ⟨rfl, rfl, by rintro f ⟨a, h1, h2⟩; cases h1; cases h2⟩⟩
  · exact ⟨["A", "B"], [], parentCases.drop 1, ⟨_, "yes"⟩, _, caser_intent, by decide, rfl, values_two rfl rfl, by decide, by simp,
      .cons _ _ _ [[("A", .str "bob"), ("B", .str "cas")]] (fun _ => true) (fun u => rfl) (fun b _ => .nil b), ⟨[], _, rfl, by simp⟩,
      ⟨rfl, rfl, by rintro f ⟨a, h1, h2⟩; cases h1; cases h2⟩⟩

/-- The reply is put into the buffer once for each answer of the conditions. -/
theorem C111_twice : (match (solverAt (modelOf caseModules) 4).solve (casesQuery parentCases) annZed claimer with
      | .ok w _ => some (listenerOut.get w)
      | _ => none) = some [("output_type", [[("type", .str "sometimes")], [("type", .str "sometimes")]])] := by
  decide +kernel

end Ex

end Verif
