import Verif.Props.FirstOrder
import Verif.DatalogReturns

/-!
# Recursive rules return exactly if there is no endless chain of calls
-/

namespace Verif

/-- The rules hold in what the modules hold. -/
theorem rules_hold {W : Type} {mods : List (Module W)} {g : W → InfState} {w : W} {ar : String → Option Nat}
    {dbs : List (Dict (List (List Value)))} {rs : List HornRule} (hok : ProgramOk W ar dbs rs) (h : Holds mods g w ar dbs rs)
    {p : String} {hargs : List Value} {body : Query} (hr : (program dbs rs).rules p hargs body) : (programOf mods g w).rules p hargs body := by
  have hr' : (⟨p, hargs, body⟩ : HornRule) ∈ rs := hr
  have hx : ∃ r ∈ rs, r.pred = p := ⟨_, hr', rfl⟩
  refine ⟨h.heads p _ (hok.rulesOk _ hr').1 hx, _, by rw [h.rules p, if_pos hx], ?_⟩
  rw [List.mem_map]
  exact ⟨⟨p, hargs, body⟩, by simp [hr'], rfl⟩

/-- The calls are the same in what the modules hold. -/
theorem holds_nextCall {W : Type} {mods : List (Module W)} {g : W → InfState} {w : W} {ar : String → Option Nat}
    {dbs : List (Dict (List (List Value)))} {rs : List HornRule} (hok : ProgramOk W ar dbs rs) (h : Holds mods g w ar dbs rs)
    {c' c : String × List Value} : NextCall (programOf mods g w) c' c ↔ NextCall (program dbs rs) c' c := by
  constructor
  · rintro ⟨hargs, body, hr, σ, h1, h2, pre, a, post, h3, h4, h5⟩
    have hr' := holds_rules h hr
    refine ⟨hargs, body, hr', σ, h1, h2, pre, a, post, h3, fun d hd => ?_, h5⟩
    exact (holds_derivable hok h ((hok.rulesOk _ hr').2.2 d (by rw [h3]; exact List.mem_append_left _ hd)).1).1 (h4 d hd)
  · rintro ⟨hargs, body, hr, σ, h1, h2, pre, a, post, h3, h4, h5⟩
    refine ⟨hargs, body, rules_hold hok h hr, σ, h1, h2, pre, a, post, h3, fun d hd => ?_, h5⟩
    exact (holds_derivable hok h ((hok.rulesOk _ hr).2.2 d (by rw [h3]; exact List.mem_append_left _ hd)).1).2 (h4 d hd)

theorem holds_queryCall {W : Type} {mods : List (Module W)} {g : W → InfState} {w : W} {ar : String → Option Nat}
    {dbs : List (Dict (List (List Value)))} {rs : List HornRule} (hok : ProgramOk W ar dbs rs) (h : Holds mods g w ar dbs rs)
    {q : Query} (hq : QueryOk ar q) {b : Binding} {c : String × List Value} : QueryCall (programOf mods g w) q b c ↔ QueryCall (program dbs rs) q b c := by
  constructor
  · rintro ⟨σ, h1, h2, pre, a, post, h3, h4, h5⟩
    refine ⟨σ, h1, h2, pre, a, post, h3, fun d hd => ?_, h5⟩
    exact (holds_derivable hok h (hq d (by rw [h3]; exact List.mem_append_left _ hd)).1).1 (h4 d hd)
  · rintro ⟨σ, h1, h2, pre, a, post, h3, h4, h5⟩
    refine ⟨σ, h1, h2, pre, a, post, h3, fun d hd => ?_, h5⟩
    exact (holds_derivable hok h (hq d (by rw [h3]; exact List.mem_append_left _ hd)).1).2 (h4 d hd)

theorem holds_endless {W : Type} {mods : List (Module W)} {g : W → InfState} {w : W} {ar : String → Option Nat}
    {dbs : List (Dict (List (List Value)))} {rs : List HornRule} (hok : ProgramOk W ar dbs rs) (h : Holds mods g w ar dbs rs)
    {q : Query} (hq : QueryOk ar q) {b : Binding} : EndlessCalls (programOf mods g w) q b ↔ EndlessCalls (program dbs rs) q b := by
  simp only [EndlessCalls, holds_queryCall hok h hq, holds_nextCall hok h]

section
variable {W : Type} {ar : String → Option Nat} {tables : List (Dict (List (List Value)))} {rs : List HornRule}

/-- **C92** A query over stored rows and rules, recursive or not, returns exactly if there is no endless chain of calls; and then it returns without an
exception, with the state unchanged, and its answers are exactly the consequences. -/
theorem C92_returns_iff (K : KnowledgeBase W ar tables rs) (hrr : HeadsBound rs) {q : Query} (hq : QueryOk ar q) {b : Binding} (hb : PlainB b) :
    (∃ n bs, K.ask n q b = .ok K.world (.rows bs)) ↔ ¬ EndlessCalls (program tables rs) q b := by
  have hok : ProgramOk W ar (K.dbs ++ K.dbs') rs := K.split ▸ K.ok
  have hh := holds_inference K.lens K.world ar K.facts K.facts' rs hok K.inserted
  rw [← K.split] at hh
  have hwf := holds_wellFormed K.ok hh
  rw [← holds_endless K.ok hh hq, ← solve_returns_iff hwf (fun p hargs body hr x hx => hrr _ (holds_rules hh hr) x hx) hq hb]
  constructor
  · rintro ⟨n, bs, h⟩
    refine ⟨n, fun h' => ?_⟩
    rw [KnowledgeBase.ask] at h
    rw [h] at h'
    cases h'
  · rintro ⟨n, hn⟩
    obtain ⟨bs, h, _⟩ := (solve_good hwf n hq hb).ok_of_ne hn
    exact ⟨n, bs, h⟩

/-- The rules `t(X, Y) :- p(X, Y).` and `t(X, Z) :- p(X, Y), t(Y, Z).` -/
def transitive (p t : String) : List HornRule :=
  [⟨t, [.var "X", .var "Y"], [(p, [.var "X", .var "Y"])]⟩,
   ⟨t, [.var "X", .var "Z"], [(p, [.var "X", .var "Y"]), (t, [.var "Y", .var "Z"])]⟩]

/-- The pair is a stored row (specification). -/
def StoredPair (tables : List (Dict (List (List Value)))) (p : String) (x y : Value) : Prop :=
  ∃ db ∈ tables, ∃ rows, db.get p = some rows ∧ [x, y] ∈ rows

theorem transitive_heads (p t : String) : HeadsBound (transitive p t) := by
  intro r hr x hx
  simp only [transitive, List.mem_cons, List.not_mem_nil, or_false] at hr
  rcases hr with rfl | rfl <;> simp only [List.mem_cons, Value.var.injEq, List.not_mem_nil, or_false] at hx <;> rcases hx with rfl | rfl <;> simp [queryVars]

theorem transitive_ar (K : KnowledgeBase W ar tables (transitive p t)) : ar p = some 2 ∧ ar t = some 2 := by
  have h := K.ok.rulesOk ⟨t, [.var "X", .var "Y"], [(p, [.var "X", .var "Y"])]⟩ (by simp [transitive])
  exact ⟨(h.2.2 (p, [.var "X", .var "Y"]) (by simp)).1, h.1⟩

/-- Consequences with the stored predicate. -/
theorem transitive_stored {p t : String} (hpt : p ≠ t) {row : List Value} :
    Derivable (program tables (transitive p t)) p row ↔ ∃ db ∈ tables, ∃ rows, db.get p = some rows ∧ row ∈ rows := by
  refine ⟨fun h => ?_, fun h => .fact h⟩
  cases h with
  | fact h => exact h
  | rule σ hr _ _ =>
    simp [program, transitive] at hr
    rcases hr with ⟨e, _⟩ | ⟨e, _⟩ <;> exact absurd e hpt

/-- A stored pair as a step of a chain of calls. -/
theorem transitive_next {p t : String} (hpt : p ≠ t) {c' c : String × List Value} (h : NextCall (program tables (transitive p t)) c' c) :
    c.1 = t ∧ (c'.1 = p ∨ ∃ x y z v w, Plain y ∧ c.2 = [v, w] ∧ (v = .none ∨ v = x) ∧ c' = (t, [y, z]) ∧ StoredPair tables p x y) := by
  obtain ⟨hargs, body, hr, σ, h1, h2, pre, a, post, h3, h4, rfl⟩ := h
  simp only [program, transitive, List.mem_cons, HornRule.mk.injEq, List.not_mem_nil, or_false] at hr
  rcases hr with ⟨e, rfl, rfl⟩ | ⟨e, rfl, rfl⟩
  · refine ⟨e, .inl ?_⟩
    cases pre with
    | nil => simp only [List.nil_append, List.cons.injEq] at h3; rw [← h3.1]
    | cons d pre => simp at h3
  · refine ⟨e, ?_⟩
    match pre with
    | [] => simp only [List.nil_append, List.cons.injEq] at h3; left; rw [← h3.1]
    | [d] =>
      simp only [List.cons_append, List.nil_append, List.cons.injEq] at h3
      obtain ⟨rfl, rfl, _⟩ := h3
      right
      obtain ⟨c1, c2⟩ := c
      match c2, h2 with
      | [v, w], h2 =>
        have hz : ∃ z, callValues σ (fun x => KnownIn [.var "X", .var "Z"] [v, w] x ∨ x ∈ queryVars [(p, [.var "X", .var "Y"])]) [.var "Y", .var "Z"] = [σ "Y", z] := by
          simp only [callValues, List.map_cons, List.map_nil]
          rw [if_pos (.inr (by simp [queryVars]))]
          exact ⟨_, rfl⟩
        obtain ⟨z, hz⟩ := hz
        exact ⟨σ "X", σ "Y", z, v, w, h1 _, rfl, h2.1, Prod.ext rfl hz, (transitive_stored hpt).1 (by simpa [inst] using h4 (p, [.var "X", .var "Y"]) (by simp))⟩
    | d :: d' :: pre => simp at h3

/-- The chain of calls along stored pairs. -/
theorem transitive_call {p t : String} {x y v w : Value} (hx : Plain x) (hy : Plain y) (hw : w = .none ∨ Plain w) (hv : v = .none ∨ v = x)
    (h : StoredPair tables p x y) : NextCall (program tables (transitive p t)) (t, [y, w]) (t, [v, w]) := by
  let σ : Assignment := fun n => if n = "X" then x else if n = "Y" then y else if w = .none then .num 0 else w
  have hσ : ∀ n, Plain (σ n) := by
    intro n
    simp only [σ]
    split
    · exact hx
    · split
      · exact hy
      · split
        · simp [Plain, Value.isVar, legal]
        · rename_i hw'; exact hw.resolve_left hw'
  refine ⟨[.var "X", .var "Z"], [(p, [.var "X", .var "Y"]), (t, [.var "Y", .var "Z"])], by simp [program, transitive], σ, hσ, ?_,
    [(p, [.var "X", .var "Y"])], (t, [.var "Y", .var "Z"]), [], rfl, ?_, ?_⟩
  · refine ⟨hv, ?_, trivial⟩
    by_cases hw' : w = .none
    · exact .inl hw'
    · right; simp [inst, σ, hw']
  · intro d hd
    simp only [List.mem_singleton] at hd
    subst hd
    exact .fact h
  · simp only [callValues, List.map_cons, List.map_nil, Prod.mk.injEq, List.cons.injEq, true_and]
    refine ⟨by rw [if_pos (.inr (by simp [queryVars]))]; simp [σ], ?_, trivial⟩
    by_cases hw' : w = .none
    · rw [if_neg (by simp [KnownIn, queryVars, hw']), hw']
    · rw [if_pos (.inl (by simp [KnownIn, hw']))]; simp [σ, hw']

/-- **C92** The usual rules of a transitive relation, for every table: a query returns exactly if the stored pairs contain no endless path from the
value that is asked for; if nothing is known about the first argument, no endless path at all. -/
theorem C92_transitive_iff (K : KnowledgeBase W ar tables (transitive p t)) (hpt : p ≠ t) {a1 a2 : Value} (ha : ArgsOk [a1, a2]) {b : Binding} (hb : PlainB b) :
    (∃ n bs, K.ask n [(t, [a1, a2])] b = .ok K.world (.rows bs)) ↔
      ¬ ∃ path : Nat → Value, (∀ v, valueOf b a1 = some v → path 0 = v) ∧ ∀ i, StoredPair tables p (path i) (path (i + 1)) := by
  obtain ⟨arp, art⟩ := transitive_ar K
  have hq : QueryOk ar [(t, [a1, a2])] := by
    intro a h; simp only [List.mem_singleton] at h; subst h; exact ⟨art, ha⟩
  rw [C92_returns_iff K (transitive_heads p t) hq hb]
  refine not_congr ?_
  have hval : ∀ a ∈ [a1, a2], valueOf b a = none ∨ ∃ v, valueOf b a = some v ∧ Plain v := by
    intro a hm
    rcases boundArg_cases hb (ha a hm) with ⟨_, h⟩ | ⟨_, h, h'⟩
    · exact .inl h
    · exact .inr ⟨_, h, h'⟩
  have hdb : dbValues [a1, a2] b = [(valueOf b a1).getD .none, (valueOf b a2).getD .none] := by
    rw [dbValues_valueOf, dbValues_valueOf]; rfl
  have hplain : ∀ x y, StoredPair tables p x y → Plain x ∧ Plain y := by
    rintro x y ⟨db, hdb, rows, hr, hm⟩
    have := (K.ok.rowsOk p 2 arp db hdb rows hr _ hm).2
    exact ⟨this x (by simp), this y (by simp)⟩
  constructor
  · rintro ⟨chain, h0, hnext⟩
    have h0' : chain 0 = (t, dbValues [a1, a2] b) := by
      obtain ⟨σ, _, h2, pre, a, post, h3, _, e⟩ := h0
      cases pre with
      | cons d pre => simp at h3
      | nil =>
        simp only [List.nil_append, List.cons.injEq] at h3
        rw [e, ← h3.1, ← callValues_db h2]
        simp [queryVars]
    have hall : ∀ i, ∃ x y z v w, Plain y ∧ (chain i).2 = [v, w] ∧ (v = .none ∨ v = x) ∧ chain (i + 1) = (t, [y, z]) ∧ StoredPair tables p x y := by
      intro i
      rcases (transitive_next hpt (hnext i)).2 with e | h
      · exact absurd (e.symm.trans (transitive_next hpt (hnext (i + 1))).1) hpt
      · exact h
    have hx : ∀ i, ∃ x, (∀ v w, (chain i).2 = [v, w] → v = .none ∨ v = x) ∧ ∃ y z, Plain y ∧ (chain (i + 1)).2 = [y, z] ∧ StoredPair tables p x y := by
      intro i
      obtain ⟨x, y, z, v, w, h1, h2, h3, h4, h5⟩ := hall i
      refine ⟨x, fun v' w' h => ?_, y, z, h1, by rw [h4], h5⟩
      rw [h2] at h; simp only [List.cons.injEq] at h; rw [← h.1]; exact h3
    refine ⟨fun i => Classical.choose (hx i), ?_, fun i => ?_⟩
    · intro v hv
      have := (Classical.choose_spec (hx 0)).1 v _ (by rw [h0', hdb, hv]; rfl)
      rcases hval a1 (by simp) with h | ⟨v', h, h'⟩
      · rw [h] at hv; cases hv
      · rw [h] at hv; cases hv
        exact (this.resolve_left h'.1).symm
    · obtain ⟨_, y, z, h1, h2, h3⟩ := Classical.choose_spec (hx i)
      have := ((Classical.choose_spec (hx (i + 1))).1 y z h2).resolve_left h1.1
      rw [this] at h3
      exact h3
  · rintro ⟨path, h0, hstep⟩
    have hw : (valueOf b a2).getD .none = .none ∨ Plain ((valueOf b a2).getD .none) := by
      rcases hval a2 (by simp) with h | ⟨v, h, h'⟩
      · left; rw [h]; rfl
      · right; rw [h]; exact h'
    refine ⟨fun i => match i with
      | 0 => (t, dbValues [a1, a2] b)
      | i + 1 => (t, [path (i + 1), (valueOf b a2).getD .none]), QueryCall.first hb, fun i => ?_⟩
    obtain ⟨h1, h2⟩ := hplain _ _ (hstep i)
    cases i with
    | zero =>
      rw [hdb]
      refine transitive_call h1 h2 hw ?_ (hstep 0)
      rcases hval a1 (by simp) with h | ⟨v, h, h'⟩
      · left; rw [h]; rfl
      · right; rw [h]; exact (h0 v h).symm
    | succ i => exact transitive_call h1 h2 hw (.inr rfl) (hstep (i + 1))

/-- The stored pairs contain no cycle (specification). -/
def Acyclic (tables : List (Dict (List (List Value)))) (p : String) : Prop := ∀ x, ¬ Relation.TransGen (StoredPair tables p) x x

/-- All stored rows of a predicate. -/
def allRows (tables : List (Dict (List (List Value)))) (p : String) : List (List Value) := tables.flatMap fun db => (db.get p).getD []

theorem storedPair_mem {p : String} {x y : Value} : StoredPair tables p x y ↔ [x, y] ∈ allRows tables p := by
  simp only [StoredPair, allRows, List.mem_flatMap]
  constructor
  · rintro ⟨db, h, rows, e, hm⟩; exact ⟨db, h, by rw [e]; exact hm⟩
  · rintro ⟨db, h, hm⟩
    cases e : db.get p with
    | none => rw [e] at hm; simp at hm
    | some rows => exact ⟨db, h, rows, e, by rw [e] at hm; exact hm⟩

open Classical in
/-- The number of stored rows that can be reached from a value. -/
noncomputable def height (tables : List (Dict (List (List Value)))) (p : String) (x : Value) : Nat :=
  (allRows tables p).countP fun row => decide (∃ u v, row = [u, v] ∧ (u = x ∨ Relation.TransGen (StoredPair tables p) x u))

theorem height_le (p : String) (x : Value) : height tables p x ≤ (allRows tables p).length := List.countP_le_length

theorem countP_lt {α : Type} {f g : α → Bool} {xs : List α} (h : ∀ a ∈ xs, f a = true → g a = true) {x : α} (hx : x ∈ xs) (hf : f x = false) (hg : g x = true) :
    xs.countP f < xs.countP g := by
  induction xs with
  | nil => simp at hx
  | cons a xs ih =>
    have hle : xs.countP f ≤ xs.countP g := List.countP_mono_left fun a ha => h a (List.mem_cons_of_mem _ ha)
    simp only [List.countP_cons]
    rcases List.mem_cons.1 hx with rfl | hx
    · simp [hf, hg]; omega
    · have := ih (fun a ha => h a (List.mem_cons_of_mem _ ha)) hx
      have h1 := h a (by simp)
      cases hfa : f a with
      | true => simp [h1 hfa]; exact this
      | false => simp; omega

theorem height_lt {p : String} (hac : Acyclic tables p) {x y : Value} (h : StoredPair tables p x y) : height tables p y < height tables p x := by
  refine countP_lt (x := [x, y]) ?_ (storedPair_mem.1 h) ?_ ?_
  · intro row _ hr
    simp only [decide_eq_true_eq] at hr ⊢
    obtain ⟨u, v, rfl, hu⟩ := hr
    refine ⟨u, v, rfl, .inr ?_⟩
    rcases hu with rfl | hu
    · exact .single h
    · exact Relation.TransGen.trans (.single h) hu
  · simp only [decide_eq_false_iff_not]
    rintro ⟨u, v, e, hu⟩
    simp only [List.cons.injEq] at e
    obtain ⟨rfl, _⟩ := e
    rcases hu with rfl | hu
    · exact hac _ (.single h)
    · exact hac _ (Relation.TransGen.trans (.single h) hu)
  · simp only [decide_eq_true_eq]
    exact ⟨x, y, rfl, .inl rfl⟩

open Classical in
/-- **C92** Over a table without cycles, the calls of these rules go down from the number of stored rows: so everything that is said of such rules (C48, C71,
C86, C87, C88) holds for this recursion. -/
theorem C92_transitive_descends {p t : String} (hpt : p ≠ t) (hac : Acyclic tables p) :
    Descends (program tables (transitive p t)) (fun q => if q = t then (allRows tables p).length + 2 else 0) := by
  refine ⟨fun q values => if q = t then match values with
    | v :: _ => if v = .none then (allRows tables p).length + 2 else height tables p v + 1
    | [] => 0 else 0, ?_, ?_⟩
  · intro q hargs body hr values σ h1 h2 pre a post h3 h4
    have hn : NextCall (program tables (transitive p t)) (a.1, callValues σ (fun x => KnownIn hargs values x ∨ x ∈ queryVars pre) a.2) (q, values) :=
      ⟨hargs, body, hr, σ, h1, h2, pre, a, post, h3, h4, rfl⟩
    obtain ⟨e1, e2⟩ := transitive_next hpt hn
    dsimp only at e1
    subst e1
    have hlen : values ≠ [] := by
      rintro rfl
      simp only [program, transitive, List.mem_cons, HornRule.mk.injEq, List.not_mem_nil, or_false] at hr
      rcases hr with ⟨_, rfl, _⟩ | ⟨_, rfl, _⟩ <;> exact h2
    have hpos : ∀ v vs, values = v :: vs → 0 < (if v = Value.none then (allRows tables p).length + 2 else height tables p v + 1) := by
      intro v vs _; split <;> omega
    dsimp only
    rcases e2 with e2 | ⟨x, y, z, v, w, hy, e3, e4, e5, e6⟩
    · dsimp only at e2
      rw [e2, if_neg hpt, if_pos rfl]
      cases values with
      | nil => exact absurd rfl hlen
      | cons v vs => exact hpos v vs rfl
    · simp only [Prod.mk.injEq] at e5
      dsimp only at e3
      rw [e5.1, e5.2, e3, if_pos rfl, if_pos rfl]
      dsimp only
      rw [if_neg hy.1]
      have h1 := height_le (tables := tables) p y
      split
      · omega
      · rename_i hv
        rw [e4.resolve_left hv]
        have := height_lt hac e6
        omega
  · intro q values
    dsimp only
    split
    · cases values with
      | nil => simp
      | cons v vs =>
        dsimp only
        have := height_le (tables := tables) p v
        split <;> omega
    · exact Nat.le_refl _

/-- What follows from these rules: the pairs that are connected by a path of stored pairs. -/
theorem transitive_paths {p t : String} (hpt : p ≠ t) (hno : ∀ row, ¬ (program tables (transitive p t)).facts t row)
    (hplain : ∀ x y, StoredPair tables p x y → Plain x ∧ Plain y) {row : List Value} :
    Derivable (program tables (transitive p t)) t row ↔ ∃ x y, row = [x, y] ∧ Relation.TransGen (StoredPair tables p) x y := by
  constructor
  · have main : ∀ q row, Derivable (program tables (transitive p t)) q row → q = t → ∃ x y, row = [x, y] ∧ Relation.TransGen (StoredPair tables p) x y := by
     intro q row h
     induction h with
     | fact h => intro e; subst e; exact absurd h (hno _)
     | rule σ hr _ hbody ih =>
      intro _
      simp only [program, transitive, List.mem_cons, HornRule.mk.injEq, List.not_mem_nil, or_false] at hr
      rcases hr with ⟨_, rfl, rfl⟩ | ⟨_, rfl, rfl⟩
      · exact ⟨σ "X", σ "Y", rfl, .single ((transitive_stored hpt).1 (hbody (p, [.var "X", .var "Y"]) (by simp)))⟩
      · obtain ⟨x, y, e1, h1⟩ := ih (t, [.var "Y", .var "Z"]) (by simp) rfl
        simp only [List.map_cons, inst, List.map_nil, List.cons.injEq, and_true] at e1
        obtain ⟨rfl, rfl⟩ := e1
        exact ⟨σ "X", σ "Z", rfl, Relation.TransGen.trans (.single ((transitive_stored hpt).1 (hbody (p, [.var "X", .var "Y"]) (by simp)))) h1⟩
    exact fun h => main t row h rfl
  · rintro ⟨x, y, rfl, h⟩
    have hfirst : ∀ x y, StoredPair tables p x y → Derivable (program tables (transitive p t)) t [x, y] := by
      intro x y h
      refine .rule (p := t) (hargs := [.var "X", .var "Y"]) (body := [(p, [.var "X", .var "Y"])]) (fun n => if n = "X" then x else y) (by simp [program, transitive]) ?_ ?_
      · intro n
        show Plain (if _ then _ else _)
        split
        · exact (hplain x y h).1
        · exact (hplain x y h).2
      · intro a ha
        simp only [List.mem_singleton] at ha
        subst ha
        exact .fact h
    have hnext : ∀ x y z, StoredPair tables p x y → Plain z → Derivable (program tables (transitive p t)) t [y, z] →
        Derivable (program tables (transitive p t)) t [x, z] := by
      intro x y z h hz hd
      refine .rule (p := t) (hargs := [.var "X", .var "Z"]) (body := [(p, [.var "X", .var "Y"]), (t, [.var "Y", .var "Z"])])
        (fun n => if n = "X" then x else if n = "Y" then y else z) (by simp [program, transitive]) ?_ ?_
      · intro n
        show Plain (if _ then _ else _)
        split
        · exact (hplain x y h).1
        · split
          · exact (hplain x y h).2
          · exact hz
      · intro a ha
        simp only [List.mem_cons, List.not_mem_nil, or_false] at ha
        rcases ha with rfl | rfl
        · exact .fact h
        · exact hd
    have hpath : ∀ z, Relation.TransGen (StoredPair tables p) x z → ∀ y, Plain y → Derivable (program tables (transitive p t)) t [z, y] →
        Derivable (program tables (transitive p t)) t [x, y] := by
      intro z hz
      induction hz with
      | single h => exact fun y hy hd => hnext _ _ _ h hy hd
      | tail _ h ih => exact fun y hy hd => ih y hy (hnext _ _ _ h hy hd)
    cases h with
    | single h => exact hfirst _ _ h
    | tail h1 h2 => exact hpath _ h1 _ (hplain _ _ h2).2 (hfirst _ _ h2)

/-- **C92** Over every table without cycles the question for all connected pairs returns, and its answers are exactly the pairs that are connected by a path. -/
theorem C92_transitive_answers (K : KnowledgeBase W ar tables (transitive p t)) (hpt : p ≠ t) (hac : Acyclic tables p)
    (hno : ∀ db ∈ tables, db.get t = none) {x y : String} (hxy : x ≠ y) :
    ∃ n bs, K.ask n [(t, [.var x, .var y])] [] = .ok K.world (.rows bs) ∧
      ∀ u v, (∃ b ∈ bs, b.get x = some u ∧ b.get y = some v) ↔ Relation.TransGen (StoredPair tables p) u v := by
  obtain ⟨arp, art⟩ := transitive_ar K
  have hargs : ArgsOk [.var x, .var y] := by
    intro a ha hv
    simp only [List.mem_cons, List.not_mem_nil, or_false] at ha
    rcases ha with rfl | rfl <;> simp [Value.isVar] at hv
  have hq : QueryOk ar [(t, [.var x, .var y])] := by
    intro a h; simp only [List.mem_singleton] at h; subst h; exact ⟨art, hargs⟩
  have hplain : ∀ x y, StoredPair tables p x y → Plain x ∧ Plain y := by
    rintro x y ⟨db, hdb, rows, hr, hm⟩
    have := (K.ok.rowsOk p 2 arp db hdb rows hr _ hm).2
    exact ⟨this x (by simp), this y (by simp)⟩
  have hpaths := fun row => transitive_paths (tables := tables) (p := p) (t := t) (row := row) hpt
    (by rintro row ⟨db, hdb, rows, e, _⟩; rw [hno db hdb] at e; cases e) hplain
  obtain ⟨n, bs, h⟩ := (C92_transitive_iff K hpt hargs Ex.plainB_nil).2 (by
    rintro ⟨path, _, hstep⟩
    have : ∀ i, height tables p (path i) + i ≤ height tables p (path 0) := by
      intro i
      induction i with
      | zero => simp
      | succ i ih => have := height_lt hac (hstep i); omega
    have := this (height tables p (path 0) + 1)
    omega)
  obtain ⟨hs, _, hc⟩ := K.exact hq Ex.plainB_nil h
  refine ⟨n, bs, h, fun u v => ⟨?_, fun hp => ?_⟩⟩
  · rintro ⟨b, hb, hu, hv⟩
    obtain ⟨hpb, _, _, hd⟩ := hs b hb
    obtain ⟨σ, _, hσ⟩ := plain_assignment hpb
    have := hd σ hσ (t, [.var x, .var y]) (by simp)
    simp only [List.map_cons, inst, List.map_nil, hσ x u hu, hσ y v hv] at this
    obtain ⟨x', y', e, hp⟩ := (hpaths _).1 this
    simp only [List.cons.injEq, and_true] at e
    rw [e.1, e.2]
    exact hp
  · have huv : Plain u ∧ Plain v := by
      refine ⟨?_, ?_⟩
      · clear h hc
        induction hp with
        | single h => exact (hplain _ _ h).1
        | tail _ _ ih => exact ih
      · cases hp with
        | single h => exact (hplain _ _ h).2
        | tail _ h => exact (hplain _ _ h).2
    obtain ⟨b, hb, hσ⟩ := hc (transitive_heads p t) (fun n => if n = x then u else v) (by
      intro n
      show Plain (if _ then _ else _)
      split
      · exact huv.1
      · exact huv.2) (by intro n v' hn; simp [Dict.get] at hn) (by
      intro a ha
      simp only [List.mem_singleton] at ha
      subst ha
      refine (hpaths _).2 ⟨u, v, ?_, hp⟩
      simp [inst, hxy.symm])
    refine ⟨b, hb, ?_, ?_⟩
    · have hx : b.has x = true := ((hs b hb).2.2.1 x).2 (.inr (by simp [queryVars]))
      obtain ⟨v', hv'⟩ := (Dict.has_iff ..).1 hx
      have := hσ x v' hv'
      simp only [if_pos] at this
      rw [hv', this]
    · have hy : b.has y = true := ((hs b hb).2.2.1 y).2 (.inr (by simp [queryVars]))
      obtain ⟨v', hv'⟩ := (Dict.has_iff ..).1 hy
      have := hσ y v' hv'
      simp only [hxy.symm, if_false] at this
      rw [hv', this]

/-- The rules `t(X, Y) :- p(X, Y).` and `t(X, Z) :- t(X, Y), p(Y, Z).` -/
def leftTransitive (p t : String) : List HornRule :=
  [⟨t, [.var "X", .var "Y"], [(p, [.var "X", .var "Y"])]⟩,
   ⟨t, [.var "X", .var "Z"], [(t, [.var "X", .var "Y"]), (p, [.var "Y", .var "Z"])]⟩]

/-- **C92** (limit) With the recursive atom in front, no question returns, whatever is stored. -/
theorem C92_left_recursion (K : KnowledgeBase W ar tables (leftTransitive p t)) {a1 a2 : Value} (ha : ArgsOk [a1, a2]) {b : Binding} (hb : PlainB b) (n : Nat)
    (bs : List Binding) : K.ask n [(t, [a1, a2])] b ≠ .ok K.world (.rows bs) := by
  intro h
  have art : ar t = some 2 := (K.ok.rulesOk ⟨t, [.var "X", .var "Y"], [(p, [.var "X", .var "Y"])]⟩ (by simp [leftTransitive])).1
  have hq : QueryOk ar [(t, [a1, a2])] := by
    intro a h; simp only [List.mem_singleton] at h; subst h; exact ⟨art, ha⟩
  refine (C92_returns_iff K ?_ hq hb).1 ⟨n, bs, h⟩ ?_
  · intro r hr x hx
    simp only [leftTransitive, List.mem_cons, List.not_mem_nil, or_false] at hr
    rcases hr with rfl | rfl <;> simp only [List.mem_cons, Value.var.injEq, List.not_mem_nil, or_false] at hx <;> rcases hx with rfl | rfl <;> simp [queryVars]
  · have hval : ∀ a ∈ [a1, a2], (valueOf b a).getD .none = .none ∨ Plain ((valueOf b a).getD .none) := by
      intro a hm
      rcases boundArg_cases hb (ha a hm) with ⟨_, h⟩ | ⟨_, h, h'⟩
      · left; rw [h]; rfl
      · right; rw [h]; exact h'
    have hdb : dbValues [a1, a2] b = [(valueOf b a1).getD .none, (valueOf b a2).getD .none] := by
      rw [dbValues_valueOf, dbValues_valueOf]; rfl
    have hstep : ∀ v w : Value, (v = .none ∨ Plain v) → (w = .none ∨ Plain w) → NextCall (program tables (leftTransitive p t)) (t, [v, .none]) (t, [v, w]) := by
      intro v w hv hw
      let σ : Assignment := fun n => if n = "X" then (if v = .none then .num 0 else v) else (if w = .none then .num 0 else w)
      have hσ : ∀ n, Plain (σ n) := by
        intro n
        simp only [σ]
        split
        · split
          · simp [Plain, Value.isVar, legal]
          · rename_i h; exact hv.resolve_left h
        · split
          · simp [Plain, Value.isVar, legal]
          · rename_i h; exact hw.resolve_left h
      refine ⟨[.var "X", .var "Z"], [(t, [.var "X", .var "Y"]), (p, [.var "Y", .var "Z"])], by simp [program, leftTransitive], σ, hσ, ?_,
        [], (t, [.var "X", .var "Y"]), [(p, [.var "Y", .var "Z"])], rfl, by simp, ?_⟩
      · refine ⟨?_, ?_, trivial⟩
        · by_cases h : v = .none
          · exact .inl h
          · right; simp [inst, σ, h]
        · by_cases h : w = .none
          · exact .inl h
          · right; simp [inst, σ, h]
      · simp only [callValues, List.map_cons, List.map_nil, Prod.mk.injEq, List.cons.injEq, true_and]
        refine ⟨?_, by rw [if_neg (by simp [KnownIn, queryVars])], trivial⟩
        by_cases h : v = .none
        · rw [if_neg (by simp [KnownIn, queryVars, h]), h]
        · rw [if_pos (.inl (by simp [KnownIn, h]))]; simp [σ, h]
    refine ⟨fun i => match i with
      | 0 => (t, dbValues [a1, a2] b)
      | _ + 1 => (t, [(valueOf b a1).getD .none, .none]), QueryCall.first hb, fun i => ?_⟩
    cases i with
    | zero => rw [hdb]; exact hstep _ _ (hval a1 (by simp)) (hval a2 (by simp))
    | succ i => exact hstep _ _ (hval a1 (by simp)) (.inl rfl)

end

namespace Ex

theorem family_pair {x y : Value} : StoredPair [family] "parent" x y ↔ (x = .str "ann" ∧ y = .str "bob") ∨ (x = .str "bob" ∧ y = .str "cas") ∨ (x = .str "cas" ∧ y = .str "dan") := by
  rw [storedPair_mem]
  have : allRows [family] "parent" = [[.str "ann", .str "bob"], [.str "bob", .str "cas"], [.str "cas", .str "dan"]] := by simp [allRows, family, Dict.get]
  rw [this]
  simp

/-- Nobody is their own ancestor. -/
theorem family_acyclic : Acyclic [family] "parent" := by
  let age : Value → Nat := fun v => if v = .str "ann" then 3 else if v = .str "bob" then 2 else if v = .str "cas" then 1 else 0
  have h1 : ∀ x y, StoredPair [family] "parent" x y → age y < age x := by
    intro x y h
    rcases family_pair.1 h with ⟨rfl, rfl⟩ | ⟨rfl, rfl⟩ | ⟨rfl, rfl⟩ <;> simp [age]
  intro x hx
  have h2 : ∀ y, Relation.TransGen (StoredPair [family] "parent") x y → age y < age x := by
    intro y hy
    induction hy with
    | single h => exact h1 _ _ h
    | tail _ h ih => exact Nat.lt_trans (h1 _ _ h) ih
  exact Nat.lt_irrefl _ (h2 x hx)

example : ∃ n bs, familyKB.ask n [("ancestor", [.var "A", .var "B"])] [] = .ok familyKB.world (.rows bs) ∧
    ∃ b ∈ bs, b.get "A" = some (.str "ann") ∧ b.get "B" = some (.str "dan") := by
  obtain ⟨n, bs, h, hp⟩ := C92_transitive_answers (p := "parent") (t := "ancestor") familyKB (by decide) family_acyclic
    (by intro db hdb; simp only [List.mem_singleton] at hdb; subst hdb; rfl) (x := "A") (y := "B") (by decide)
  refine ⟨n, bs, h, (hp _ _).2 ?_⟩
  exact .tail (.tail (.single (family_pair.2 (.inl ⟨rfl, rfl⟩))) (family_pair.2 (.inr (.inl ⟨rfl, rfl⟩)))) (family_pair.2 (.inr (.inr ⟨rfl, rfl⟩)))

/-- The question about numbers of ancestors, with the recursive rules. -/
example : (∃ bs, familyKB.askForms 7 question [] = .ok familyKB.world (.rows bs)) ∨ ∃ w' e, familyKB.askForms 7 question [] = .err w' e :=
  C71_returns familyKB ancestor_heads family_core (C92_transitive_descends (p := "parent") (t := "ancestor") (by decide) family_acyclic) question_ok plainB_nil (by decide +kernel)

/-- A table in which Eve is their own parent. -/
def strange : Dict (List (List Value)) := [("parent", [[.str "ann", .str "eve"], [.str "eve", .str "eve"], [.str "fay", .str "gus"]])]

theorem strange_ok (rs : List HornRule) (h : ∃ r ∈ rs, r.pred = "ancestor")
    (hr : ∀ r ∈ rs, familyAr r.pred = some r.args.length ∧ ArgsOk r.args ∧ QueryOk familyAr r.body) : ProgramOk InfState familyAr [strange] rs := by
  refine ⟨family_ok.notReserved, ?_, ?_, hr⟩
  · intro p k h'
    simp only [familyAr] at h'
    split at h'
    · rename_i e; subst e; exact .inl ⟨strange, by simp, by decide⟩
    · split at h'
      · rename_i e; subst e; exact .inr h
      · simp at h'
  · intro p k h db hdb rows hrows row hrow
    simp only [List.mem_singleton] at hdb
    subst hdb
    have hp : p = "parent" := by
      by_cases e : "parent" = p
      · exact e.symm
      · simp [strange, Dict.get, e] at hrows
    subst hp
    have hk : k = 2 := by simpa [familyAr] using h.symm
    subst hk
    have : rows = [[.str "ann", .str "eve"], [.str "eve", .str "eve"], [.str "fay", .str "gus"]] := by
      simpa [strange, Dict.get] using hrows.symm
    subst this
    simp only [List.mem_cons, List.not_mem_nil, or_false] at hrow
    rcases hrow with rfl | rfl | rfl <;> simp [Plain, Value.isVar, legal]

def strangeKB : KnowledgeBase InfState familyAr [strange] ancestorRules :=
  tableKB (s := familyState) (strange_ok _ ⟨_, List.mem_cons_self, rfl⟩ family_ok.rulesOk) family_inserted

theorem strange_pair {x y : Value} : StoredPair [strange] "parent" x y ↔ (x = .str "ann" ∧ y = .str "eve") ∨ (x = .str "eve" ∧ y = .str "eve") ∨ (x = .str "fay" ∧ y = .str "gus") := by
  rw [storedPair_mem]
  have : allRows [strange] "parent" = [[.str "ann", .str "eve"], [.str "eve", .str "eve"], [.str "fay", .str "gus"]] := by simp [allRows, strange, Dict.get]
  rw [this]
  simp

/-- The question for the descendants of Ann never returns. -/
example : ¬ ∃ n bs, strangeKB.ask n [("ancestor", [.str "ann", .var "B"])] [] = .ok strangeKB.world (.rows bs) := by
  intro h
  refine (C92_transitive_iff (p := "parent") (t := "ancestor") strangeKB (by decide) (by simp [ArgsOk, Value.isVar, Plain, legal]) plainB_nil).1 h ?_
  refine ⟨fun i => if i = 0 then .str "ann" else .str "eve", by simp [valueOf], fun i => strange_pair.2 ?_⟩
  by_cases hi : i = 0 <;> simp [hi]

/-- That for the descendants of Fay does. -/
example : ∃ n bs, strangeKB.ask n [("ancestor", [.str "fay", .var "B"])] [] = .ok strangeKB.world (.rows bs) := by
  refine (C92_transitive_iff (p := "parent") (t := "ancestor") strangeKB (by decide) (by simp [ArgsOk, Value.isVar, Plain, legal]) plainB_nil).2 ?_
  rintro ⟨path, h0, hs⟩
  have h0 := h0 _ rfl
  have h1 : path 1 = .str "gus" := by
    rcases strange_pair.1 (hs 0) with ⟨h, _⟩ | ⟨h, _⟩ | ⟨_, h⟩
    · rw [h0] at h; simp at h
    · rw [h0] at h; simp at h
    · exact h
  rcases strange_pair.1 (hs 1) with ⟨h, _⟩ | ⟨h, _⟩ | ⟨h, _⟩ <;> rw [h1] at h <;> simp at h

/-- The family with the recursive atom in front. -/
def leftKB : KnowledgeBase InfState familyAr [family] (leftTransitive "parent" "ancestor") :=
  tableKB (s := { relations := [("learn_rule", .learnRule), ("ancestor", .handleRule)]
                  rules := [("ancestor", (leftTransitive "parent" "ancestor").map HornRule.toRule)] })
    (by
      refine ⟨family_ok.notReserved, ?_, family_ok.rowsOk, ?_⟩
      · intro p k h
        exact (family_ok.defined p k h).imp id fun ⟨r, hr, e⟩ => by
          refine ⟨(leftTransitive "parent" "ancestor")[0], by simp [leftTransitive], ?_⟩
          simp only [ancestorRules, List.mem_cons, List.not_mem_nil, or_false] at hr
          rcases hr with rfl | rfl <;> exact e
      · intro r hr
        simp only [leftTransitive, List.mem_cons, List.not_mem_nil, or_false] at hr
        rcases hr with rfl | rfl <;> refine ⟨rfl, ?_, ?_⟩ <;> simp [QueryOk, ArgsOk, Value.isVar, familyAr]) (by decide +kernel)

example (n : Nat) (bs : List Binding) : leftKB.ask n [("ancestor", [.str "ann", .var "B"])] [] ≠ .ok leftKB.world (.rows bs) :=
  C92_left_recursion leftKB (by simp [ArgsOk, Value.isVar, Plain, legal]) plainB_nil n bs

end Ex

end Verif
