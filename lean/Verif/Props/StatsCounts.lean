import Verif.Props.Stats
import Verif.Props.Fallible

/-!
# C99: what the numbers in the statistics say

A number in the statistics of a query over stored facts is a number of ways to satisfy a first part of the query.
-/

namespace Verif

/-! ## Specification -/

/-- There are `k` ways to give values to the variables of the query, beside those that have a value in `b`, such that all its atoms are stored facts. -/
def Ways (tables : List (Dict (List (List Value)))) (q : Query) (b : Binding) (k : Nat) : Prop :=
  HasCount (fun x => b.has x = true ∨ x ∈ queryVars q)
    (fun τ => (∀ x, Plain (τ x)) ∧ (∀ x v, b.get x = some v → τ x = v) ∧ AllStored tables q τ) k

/-- The sum of the numbers `k i` of the positions at which the predicate is `p`. -/
def totalFor (p : String) (k : Nat → Nat) : Query → Nat
  | [] => 0
  | a :: q => (if a.1 = p then k 0 else 0) + totalFor p (fun i => k (i + 1)) q

/-! ## Answers of a sequence, with the number of times they are found -/

theorem exact_flatMap {V1 V2 : List String} {S1 S2 : Assignment → Prop} {b : Binding} {bs : List Binding} (h1 : Exact V1 S1 b bs)
    {f : Binding → List Binding} (hf : ∀ b1 ∈ bs, Exact V2 S2 b1 (f b1)) : Exact (V1 ++ V2) (fun σ => S1 σ ∧ S2 σ) b (bs.flatMap f) := by
  refine ⟨?_, ?_, ?_⟩
  · intro b' hb'
    obtain ⟨b1, hb1, hb'⟩ := List.mem_flatMap.1 hb'
    obtain ⟨a1, a2, a3, a4⟩ := h1.sound b1 hb1
    obtain ⟨c1, c2, c3, c4⟩ := (hf b1 hb1).sound b' hb'
    refine ⟨c1, a2.trans c2, fun x => ?_, fun σ hp hσ => ⟨a4 σ hp (hσ.mono c2), c4 σ hp hσ⟩⟩
    rw [c3, a3, List.mem_append, or_assoc]
  · intro σ hp hσ hS
    obtain ⟨b1, hb1, hag⟩ := h1.complete σ hp hσ hS.1
    obtain ⟨b2, hb2, hag2⟩ := (hf b1 hb1).complete σ hp hag hS.2
    exact ⟨b2, List.mem_flatMap.2 ⟨b1, hb1, hb2⟩, hag2⟩
  · have hsame : ∀ b1 ∈ bs, ∀ b2 ∈ bs, ∀ x ∈ f b1, ∀ y ∈ f b2, SameDict x y → SameDict b1 b2 := by
      intro b1 hb1 b2 hb2 x hx y hy hxy k
      have e : b1.has k = true ↔ b2.has k = true := by rw [(h1.sound b1 hb1).2.2.1, (h1.sound b2 hb2).2.2.1]
      have ex1 := ((hf b1 hb1).sound x hx).2.1
      have ex2 := ((hf b2 hb2).sound y hy).2.1
      cases hk : b1.get k with
      | none =>
        cases hk2 : b2.get k with
        | none => rfl
        | some v =>
          obtain ⟨u, hu⟩ := (Dict.has_iff _ _).1 (e.2 ((Dict.has_iff _ _).2 ⟨v, hk2⟩))
          rw [hk] at hu
          cases hu
      | some v =>
        obtain ⟨u, hu⟩ := (Dict.has_iff _ _).1 (e.1 ((Dict.has_iff _ _).2 ⟨v, hk⟩))
        have h1 := ex1 k v hk
        rw [hxy k, ex2 k u hu] at h1
        rw [hu, h1]
    have hno := h1.noDup
    have hsame' := hsame
    clear hsame
    have hfd : ∀ b1 ∈ bs, NoDup (f b1) := fun b1 hb1 => (hf b1 hb1).noDup
    clear hf h1
    induction bs with
    | nil => exact List.Pairwise.nil
    | cons b1 bs ih =>
      obtain ⟨n1, n2⟩ := List.pairwise_cons.1 hno
      refine List.pairwise_append.2 ⟨hfd b1 (by simp), ih n2 (fun x hx y hy => hsame' x (by simp [hx]) y (by simp [hy])) fun x hx => hfd x (by simp [hx]), ?_⟩
      intro x hx y hy hxy
      obtain ⟨b2, hb2, hy⟩ := List.mem_flatMap.1 hy
      exact n1 b2 hb2 (hsame' b1 (by simp) b2 (by simp [hb2]) x hx y hy hxy)

section
variable {V : Type} {ar : String → Option Nat} {tables : List (Dict (List (List Value)))} {mods : List (Module V)} {v : V}

/-- The modules hold the tables in this world, and nothing else about the predicates in `ar`. -/
def HoldsTables (mods : List (Module V)) (v : V) (ar : String → Option Nat) (tables : List (Dict (List (List Value)))) : Prop :=
  ∀ p k, ar p = some k → (∀ r ∈ findRelations mods v p, ∃ t ∈ tables, ∃ rows, t.get p = some rows ∧ TableLike r v rows) ∧
    ∀ t ∈ tables, ∀ rows, t.get p = some rows → ∃ r ∈ findRelations mods v p, TableLike r v rows

theorem HoldsTables.holds (h : HoldsTables mods v ar tables) : Holds mods (fun _ => InfState.init) v ar tables [] := by
  refine ⟨fun p k hp r hr => .inl ((h p k hp).1 r hr), fun p k hp => (h p k hp).2, fun p k _ hr => ?_, fun p => ?_⟩
  · obtain ⟨r, hr, _⟩ := hr; cases hr
  · simp [InfState.init]

theorem queryRelations_tables {rs : List (Relation V)} (h : ∀ r ∈ rs, ∃ rows, TableLike r v rows) (mult : Bool) (args : List Value) (b : Binding)
    (db : List Value) (acc : List (List Value)) : ∃ rows, ∀ api : SolverApi V, queryRelations api mult args b db rs acc v = .ok v (.rows rows) := by
  induction rs generalizing acc with
  | nil => exact ⟨acc, fun _ => rfl⟩
  | cons r rs ih =>
    obtain ⟨rows, hr⟩ := h r (by simp)
    obtain ⟨rows', ih⟩ := ih (fun r hr => h r (by simp [hr])) (acc ++ dedupRows (acc.map strRow) (rows.filter (rowMatches db)))
    refine ⟨rows', fun api => ?_⟩
    simp only [queryRelations]
    rw [M.bind_ok (hr _ _)]
    exact ih api

/-- An atom about stored facts: the solver that relations are given does not matter, and the answers are exactly the facts. -/
theorem single_tables (hok : ProgramOk V ar tables []) (h : HoldsTables mods v ar tables) {p : String} {args : List Value}
    (hp : ar p = some args.length) (hargs : ArgsOk args) {b : Binding} (hb : PlainB b) :
    ∃ bs, (∀ api : SolverApi V, solveSingle.go api mods b p args v = .ok v (.rows bs)) ∧
      Exact (queryVars [(p, args)]) (AllStored tables [(p, args)]) b bs := by
  have hnd : p ≠ "$disjunction" := by rintro rfl; rw [hok.notReserved.1] at hp; simp at hp
  have hwf := holds_wellFormed hok h.holds
  have hgood := solveSingle_good hwf (api := solverAt mods 0) (fun q b _ _ => .inl rfl) hp hargs hb
  have hall : ∀ api : SolverApi V, ∃ rows, (∀ api : SolverApi V, findRelationValues api mods p args b v = .ok v (.rows rows)) := by
    intro _
    cases hf : findRelations mods v p with
    | nil => exact absurd hf (hwf.defined p _ hp)
    | cons r rs =>
      have htl : ∀ r' ∈ r :: rs, ∃ rows, TableLike r' v rows := by
        intro r' hr'
        obtain ⟨_, _, rows, _, e⟩ := (h p _ hp).1 r' (by rw [hf]; exact hr')
        exact ⟨rows, e⟩
      obtain ⟨rows, hrows⟩ := queryRelations_tables htl (decide (0 < rs.length)) args b (dbValues args b) []
      refine ⟨rows, fun api => ?_⟩
      simp only [findRelationValues]
      rw [M.bind_ok (M.gets_run _ v), hf]
      exact hrows api
  obtain ⟨rows, hrows⟩ := hall (solverAt mods 0)
  have hgo : ∀ api : SolverApi V, solveSingle.go api mods b p args v = resultsOf b args (.rows rows) v := by
    intro api
    simp only [solveSingle.go, if_neg hnd]
    rw [M.bind_ok (hrows api)]
  have hnot : (resultsOf b args (.rows rows) : M V SolOut) v ≠ .oof := by
    cases rows with
    | nil => simp [resultsOf]
    | cons r rs =>
      simp only [resultsOf]
      split
      · simp
      · cases createResults b args (r :: rs) <;> simp [M.lift, Except.map, M.pure, M.throw]
  have e : solveSingle (solverAt mods 0) mods (toAtom (p, args)) b v = resultsOf b args (.rows rows) v := hgo _
  rcases hgood with h1 | ⟨bs, h1, hs, hd, hc⟩
  · exact absurd (e.symm.trans h1) hnot
  · rw [e] at h1
    refine ⟨bs, fun api => (hgo api).trans h1, ?_, ?_, hd⟩
    · intro b' hb'
      obtain ⟨a1, a2, a3, a4⟩ := hs b' hb'
      refine ⟨a1, a2, a3, fun σ _ hσ a ha => ?_⟩
      have := a4 σ hσ a ha
      simp only [List.mem_singleton] at ha
      subst ha
      exact derivable_fact.1 ((holds_derivable hok h.holds hp).1 this)
    · intro σ hσp hσ hS
      refine hc ?_ σ hσp hσ fun a ha => ?_
      · intro p' hargs' body hr
        have := holds_rules h.holds hr
        cases this
      · have := hS a ha
        simp only [List.mem_singleton] at ha
        subst ha
        exact (holds_derivable hok h.holds hp).2 (derivable_fact.2 this)

theorem allStored_cons {a : String × List Value} {q : Query} {σ : Assignment} :
    AllStored tables (a :: q) σ ↔ AllStored tables [a] σ ∧ AllStored tables q σ := by
  simp [AllStored]

theorem queryVars_cons (a : String × List Value) (q : Query) : queryVars (a :: q) = queryVars [a] ++ queryVars q := by
  simp [queryVars]

/-- The answers, each once, of a query over stored facts. -/
theorem exact_tables (hok : ProgramOk V ar tables []) (h : HoldsTables mods v ar tables) {q : Query} (hq : QueryOk ar q) {b : Binding} (hb : PlainB b) :
    ∃ bs, Exact (queryVars q) (AllStored tables q) b bs := by
  induction q generalizing b with
  | nil =>
    refine ⟨[b], ?_, ?_, by simp [NoDup]⟩
    · intro b' hb'
      simp only [List.mem_singleton] at hb'
      subst hb'
      exact ⟨hb, Extends.refl _, by simp [queryVars], fun _ _ _ a ha => (nomatch ha)⟩
    · intro σ _ hσ _; exact ⟨b, by simp, hσ⟩
  | cons a q ih =>
    obtain ⟨p, args⟩ := a
    obtain ⟨bs, _, h1⟩ := single_tables hok h (hq (p, args) (by simp)).1 (hq (p, args) (by simp)).2 hb
    have ih' : ∀ b1, b1 ∈ bs → ∃ bs1, Exact (queryVars q) (AllStored tables q) b1 bs1 :=
      fun b1 hb1 => ih (fun a ha => hq a (by simp [ha])) (h1.sound b1 hb1).1
    have : ∃ f : Binding → List Binding, ∀ b1 ∈ bs, Exact (queryVars q) (AllStored tables q) b1 (f b1) := by
      have hc : ∀ b1, ∃ bs1, b1 ∈ bs → Exact (queryVars q) (AllStored tables q) b1 bs1 := by
        intro b1
        by_cases hb1 : b1 ∈ bs
        · obtain ⟨bs1, e⟩ := ih' b1 hb1; exact ⟨bs1, fun _ => e⟩
        · exact ⟨[], fun hb => absurd hb hb1⟩
      exact ⟨fun b1 => Classical.choose (hc b1), fun b1 hb1 => Classical.choose_spec (hc b1) hb1⟩
    obtain ⟨f, hf⟩ := this
    refine ⟨bs.flatMap f, (exact_flatMap h1 hf).congr (fun x => ?_) fun σ _ _ => ?_⟩
    · rw [queryVars_cons (p, args) q]
    · exact allStored_cons.symm

theorem ways_iff {q : Query} {b : Binding} {bs : List Binding} (h : Exact (queryVars q) (AllStored tables q) b bs) {k : Nat} :
    Ways tables q b k ↔ k = bs.length := by
  rw [← h.count_iff (totalOf_agrees b)]
  have e : (fun τ : Assignment => (∀ x, Plain (τ x)) ∧ (∀ x v, b.get x = some v → τ x = v) ∧ AllStored tables q τ) =
      fun τ => AgreeOn (dom b) (totalOf b) τ ∧ AllStored tables q τ := by
    funext τ
    apply propext
    constructor
    · rintro ⟨h1, h2, h3⟩
      exact ⟨agreeOn_of_agrees h1 (totalOf_agrees b) h2, h3⟩
    · rintro ⟨h1, h2⟩
      exact ⟨h1.1, agrees_of_agreeOn h1 (totalOf_agrees b), h2⟩
  unfold Ways
  rw [e]
  exact Iff.rfl

/-- The number of ways of a longer query is the sum of those after each answer of its first atom. -/
theorem ways_cons (hok : ProgramOk V ar tables []) (h : HoldsTables mods v ar tables) {a : String × List Value} {q : Query} (hq : QueryOk ar q)
    {b : Binding} {bs : List Binding} (h1 : Exact (queryVars [a]) (AllStored tables [a]) b bs) {k : Binding → Nat}
    (hk : ∀ b1 ∈ bs, Ways tables q b1 (k b1)) : Ways tables (a :: q) b (bs.map k).sum := by
  have hc : ∀ b1, ∃ bs1, b1 ∈ bs → Exact (queryVars q) (AllStored tables q) b1 bs1 := by
    intro b1
    by_cases hb1 : b1 ∈ bs
    · obtain ⟨bs1, e⟩ := exact_tables hok h hq (h1.sound b1 hb1).1; exact ⟨bs1, fun _ => e⟩
    · exact ⟨[], fun hb => absurd hb hb1⟩
  have hf := fun b1 hb1 => Classical.choose_spec (hc b1) hb1
  have he := (exact_flatMap h1 hf).congr (V' := queryVars (a :: q)) (S' := AllStored tables (a :: q))
    (fun x => by rw [queryVars_cons a q]) (fun σ _ _ => allStored_cons.symm)
  rw [ways_iff he, List.length_flatMap]
  congr 1
  refine List.map_congr_left fun b1 hb1 => ?_
  exact (ways_iff (hf b1 hb1)).1 (hk b1 hb1)

theorem Ways.unique {q : Query} {b : Binding} {k k' : Nat} (h : Ways tables q b k) (h' : Ways tables q b k') : k = k' := HasCount.unique h h'

theorem ways_nil {b : Binding} (hb : PlainB b) : Ways tables [] b 1 := by
  have : Exact (queryVars []) (AllStored tables []) b [b] := by
    refine ⟨?_, ?_, by simp [NoDup]⟩
    · intro b' hb'
      simp only [List.mem_singleton] at hb'
      subst hb'
      exact ⟨hb, Extends.refl _, by simp [queryVars], fun _ _ _ a ha => (nomatch ha)⟩
    · intro σ _ hσ _; exact ⟨b, by simp, hσ⟩
  exact (ways_iff this).2 rfl

/-! ## The numbers -/

theorem Stats.get_add (s : Stats) (p p' : String) : (s.add p).get p' = if p = p' then some ((s.get p).getD 0 + 1) else s.get p' := by
  simp only [Stats.add]
  rw [Dict.get_set]
  by_cases h : p = p'
  · subst h
    simp only [if_true]
    split
    · rfl
    · rename_i hn
      have : s.get p = none := by simpa [Dict.has] using hn
      simp [this]
  · simp only [if_neg h]
    split
    · rfl
    · rw [Dict.get_set_of_ne _ _ h]

/-- The numbers have gone up by `c`. -/
def Raised (c : String → Nat) (s s' : Stats) : Prop := ∀ p, s'.get p = if c p = 0 then s.get p else some ((s.get p).getD 0 + c p)

theorem Raised.refl (s : Stats) : Raised (fun _ => 0) s s := fun _ => by simp

theorem Raised.trans {c c' : String → Nat} {s s' s'' : Stats} (h : Raised c s s') (h' : Raised c' s' s'') : Raised (fun p => c p + c' p) s s'' := by
  intro p
  rw [h' p, h p]
  by_cases h1 : c p = 0 <;> by_cases h2 : c' p = 0 <;> simp [h1, h2, Nat.add_assoc]

theorem Raised.add (s : Stats) (p : String) : Raised (fun p' => if p = p' then 1 else 0) s (s.add p) := by
  intro p'
  rw [Stats.get_add]
  by_cases h : p = p'
  · subst h; simp
  · simp [h]

theorem totalFor_congr {p : String} {k k' : Nat → Nat} {q : Query} (h : ∀ i < q.length, k i = k' i) : totalFor p k q = totalFor p k' q := by
  induction q generalizing k k' with
  | nil => rfl
  | cons a q ih =>
    simp only [totalFor]
    rw [h 0 (by simp), ih fun i hi => h (i + 1) (by simpa using hi)]

theorem totalFor_sum (p : String) (q : Query) (bs : List Binding) (k : Binding → Nat → Nat) :
    totalFor p (fun i => (bs.map fun b => k b i).sum) q = (bs.map fun b => totalFor p (k b) q).sum := by
  induction q generalizing k with
  | nil => induction bs with
    | nil => rfl
    | cons b bs ih => simp only [List.map_cons, List.sum_cons, ← ih]; rfl
  | cons a q ih =>
    simp only [totalFor, ih fun b i => k b (i + 1)]
    clear ih
    induction bs with
    | nil => simp
    | cons b bs ih =>
      simp only [List.map_cons, List.sum_cons, ← ih]
      split <;> omega

theorem collect_stats {st : Lens V Stats} {f : Binding → M V SolOut} {c : Binding → String → Nat} {bs : List Binding}
    (hf : ∀ b ∈ bs, ∀ s, ∃ rs s', f b (st.put s v) = .ok (st.put s' v) (.rows rs) ∧ Raised (c b) s s') (acc : List Binding) (s : Stats) :
    ∃ rs s', collect f bs acc (st.put s v) = .ok (st.put s' v) (.rows rs) ∧ Raised (fun p => (bs.map fun b => c b p).sum) s s' := by
  induction bs generalizing acc s with
  | nil => exact ⟨acc, s, rfl, Raised.refl s⟩
  | cons b bs ih =>
    obtain ⟨rs, s1, h1, h2⟩ := hf b (by simp) s
    obtain ⟨rs', s2, h3, h4⟩ := ih (fun b hb => hf b (by simp [hb])) (rs.foldl addNew acc) s1
    refine ⟨rs', s2, ?_, ?_⟩
    · simp only [collect]
      rw [M.bind_ok h1]
      exact h3
    · have := h2.trans h4
      simpa only [List.map_cons, List.sum_cons] using this

theorem solveAtoms_stats {st : Lens V Stats} (hok : ProgramOk V ar tables []) (h : ∀ s, HoldsTables mods (st.put s v) ar tables) (api : SolverApi V)
    {q : Query} (hq : QueryOk ar q) {b : Binding} (hb : PlainB b) :
    ∃ k : Nat → Nat, (∀ i < q.length, Ways tables (q.take i) b (k i)) ∧
      ∀ s, ∃ rs s', solveAtomsStats st true api mods (q.map toAtom) b (st.put s v) = .ok (st.put s' v) (.rows rs) ∧ Raised (fun p => totalFor p k q) s s' := by
  induction q generalizing b with
  | nil =>
    exact ⟨fun _ => 0, fun i hi => absurd hi (Nat.not_lt_zero i), fun s => ⟨[b], s, rfl, Raised.refl s⟩⟩
  | cons a q ih =>
    obtain ⟨p, args⟩ := a
    have hp := hq (p, args) (by simp)
    have hq' : QueryOk ar q := fun a ha => hq a (by simp [ha])
    -- the first atom
    have hsingle : ∀ s, ∃ bs s', solveSingleStats st true api mods (toAtom (p, args)) b (st.put s v) = .ok (st.put s' v) (.rows bs) ∧
        Exact (queryVars [(p, args)]) (AllStored tables [(p, args)]) b bs ∧ Raised (fun p' => if p = p' then 1 else 0) s s' := by
      intro s
      obtain ⟨bs, h1, h2⟩ := single_tables hok (h (s.add p)) hp.1 hp.2 hb
      refine ⟨bs, s.add p, ?_, h2, Raised.add s p⟩
      simp only [toAtom, solveSingleStats, countCall, if_true]
      rw [M.bind_ok (M.modify_run _ _)]
      simp only [st.get_put, st.put_put]
      exact h1 api
    cases hq0 : q with
    | nil =>
      refine ⟨fun _ => 1, fun i hi => ?_, fun s => ?_⟩
      · have : i = 0 := by simp only [List.length_cons, List.length_nil] at hi; omega
        subst this
        exact ways_nil hb
      · obtain ⟨bs, s', h1, _, h3⟩ := hsingle s
        refine ⟨bs, s', h1, ?_⟩
        have e : (fun p' => totalFor p' (fun _ => 1) [(p, args)]) = fun p' => if p = p' then 1 else 0 := by
          funext p'; simp [totalFor]
        rw [e]
        exact h3
    | cons a2 rest =>
      rw [← hq0]
      -- the numbers after each binding
      have hk : ∀ b1, ∃ k : Nat → Nat, PlainB b1 → (∀ i < q.length, Ways tables (q.take i) b1 (k i)) ∧
          ∀ s, ∃ rs s', solveAtomsStats st true api mods (q.map toAtom) b1 (st.put s v) = .ok (st.put s' v) (.rows rs) ∧
            Raised (fun p => totalFor p k q) s s' := by
        intro b1
        by_cases hb1 : PlainB b1
        · obtain ⟨k, hk⟩ := ih hq' hb1; exact ⟨k, fun _ => hk⟩
        · exact ⟨fun _ => 0, fun hb => absurd hb hb1⟩
      have hkk := fun b1 hb1 => Classical.choose_spec (hk b1) hb1
      generalize hK : (fun b1 => Classical.choose (hk b1)) = K at hkk
      have hK' : ∀ b1, Classical.choose (hk b1) = K b1 := fun b1 => congrFun hK b1
      simp only [hK'] at hkk
      -- answers of the first atom in some world
      obtain ⟨bs0, _, _, hex0, _⟩ := hsingle []
      refine ⟨fun i => match i with | 0 => 1 | i + 1 => (bs0.map fun b1 => K b1 i).sum, fun i hi => ?_, fun s => ?_⟩
      · cases i with
        | zero => exact ways_nil hb
        | succ i =>
          simp only [List.take_succ_cons]
          refine ways_cons hok (h []) (fun a ha => hq' a (List.mem_of_mem_take ha)) hex0 fun b1 hb1 => ?_
          exact (hkk b1 (hex0.sound b1 hb1).1).1 i (by simpa using hi)
      · obtain ⟨bs, s1, h1, hex, h3⟩ := hsingle s
        obtain ⟨rs, s2, h4, h5⟩ := collect_stats (v := v) (st := st) (f := solveAtomsStats st true api mods (q.map toAtom)) (c := fun b1 p => totalFor p (K b1) q)
          (bs := bs) (fun b1 hb1 s => (hkk b1 (hex.sound b1 hb1).1).2 s) [] s1
        refine ⟨rs, s2, ?_, ?_⟩
        · rw [hq0] at h4 ⊢
          simp only [List.map_cons, solveAtomsStats] at h4 ⊢
          rw [M.bind_ok h1]
          exact h4
        · have hsum : ∀ p', (bs.map fun b1 => totalFor p' (K b1) q).sum = totalFor p' (fun i => (bs0.map fun b1 => K b1 i).sum) q := by
            intro p'
            rw [← totalFor_sum]
            refine totalFor_congr fun i hi => ?_
            have w1 := ways_cons hok (h []) (fun a ha => hq' a (List.mem_of_mem_take (i := i) ha)) hex fun b1 hb1 => (hkk b1 (hex.sound b1 hb1).1).1 i hi
            have w2 := ways_cons hok (h []) (fun a ha => hq' a (List.mem_of_mem_take (i := i) ha)) hex0 fun b1 hb1 => (hkk b1 (hex0.sound b1 hb1).1).1 i hi
            exact w1.unique w2
          have := h3.trans h5
          intro p'
          rw [this p']
          simp only [hsum, totalFor]

/-- **C99** The statistics of a query over stored facts: the query is answered, and the number of each predicate goes up by the sum, over its occurrences in
the query, of the number of ways to satisfy the atoms before that occurrence. A predicate that is not asked for gets no number. The modules may be any that
answer from the tables, whatever the statistics are. -/
theorem C99_counts {st : Lens V Stats} (hok : ProgramOk V ar tables []) (h : ∀ s, HoldsTables mods (st.put s v) ar tables) (n : Nat) {q : Query}
    (hq : QueryOk ar q) {b : Binding} (hb : PlainB b) :
    ∃ (bs : List Binding) (s' : Stats) (k : Nat → Nat),
      (solverStats st true mods (n + 1)).solve (toQuery q) b v = .ok (st.put s' v) (.rows bs) ∧
      (∀ i < q.length, Ways tables (q.take i) b (k i)) ∧
      ∀ p, s'.get p = if totalFor p k q = 0 then (st.get v).get p else some (((st.get v).get p).getD 0 + totalFor p k q) := by
  obtain ⟨k, h1, h2⟩ := solveAtoms_stats hok h (solverStats st true mods n) hq hb
  obtain ⟨bs, s', h3, h4⟩ := h2 (st.get v)
  rw [st.put_get] at h3
  exact ⟨bs, s', k, h3, h1, h4⟩

end

theorem holdsTables_model {V : Type} {ar : String → Option Nat} {tables : List (Dict (List (List Value)))} {ms : List (Module V)} {v : V}
    (hok : ProgramOk V ar tables []) (hf : FactModules ar v ms tables) : HoldsTables (modelOf ms) v ar tables := by
  have hsame : ∀ p k, ar p = some k → ∀ r, r ∈ findRelations (modelOf ms) v p ↔ r ∈ findRelations ms v p := by
    intro p k hp r
    rw [modelOf, findRelations_cons, core_none hok hp v]; simp
  intro p k hp
  refine ⟨fun r hr => (hf.mem hp).1 r ((hsame p k hp r).1 hr), fun t ht rows hrows => ?_⟩
  obtain ⟨r, hr, e⟩ := (hf.mem hp).2 t ht rows hrows
  exact ⟨r, (hsame p k hp r).2 hr, e⟩

/-- **C99** (tables) The same for the model with a module for each table, next to the core module, in a world that consists of the statistics. -/
theorem C99_tables {ar : String → Option Nat} {tables : List (Dict (List (List Value)))} (hok : ProgramOk Stats ar tables []) (n : Nat) {q : Query}
    (hq : QueryOk ar q) {b : Binding} (hb : PlainB b) (s : Stats) :
    ∃ (bs : List Binding) (s' : Stats) (k : Nat → Nat),
      (solverStats (Lens.id Stats) true (modelOf (tables.map (tableModule Stats))) (n + 1)).solve (toQuery q) b s = .ok s' (.rows bs) ∧
      (∀ i < q.length, Ways tables (q.take i) b (k i)) ∧
      ∀ p, s'.get p = if totalFor p k q = 0 then s.get p else some ((s.get p).getD 0 + totalFor p k q) :=
  C99_counts (st := Lens.id Stats) (v := s) hok (fun _ => holdsTables_model hok (tableModules_fact ar _ tables)) n hq hb

/-! ## Calls inside calls -/

section
variable {V : Type} {mods : List (Module V)} {st : Lens V Stats} {v : V} {b : Binding}

/-- **C99** (inside) What is asked for inside a negation is counted as well, after the negation itself. -/
theorem C99_not (n : Nat) {a body : Value} (hp : ∀ s, NotDefined mods (st.put s v) "not") (ha : argValue b a = some body) :
    (solverStats st true (modelOf mods) (n + 1)).solve (query1 "not" [a]) b v =
      ((solverStats st true (modelOf mods) n).solve body b (st.put ((st.get v).add "not") v)).map fun r => .rows (if r.len = 0 then [b] else []) := by
  show solveSingleStats st true (solverStats st true (modelOf mods) n) (modelOf mods) (.tuple [.str "not", a]) b v = _
  simp only [solveSingleStats, countCall, if_true]
  rw [M.bind_ok (M.modify_run _ _)]
  generalize solverStats st true (modelOf mods) n = api
  have hnd : ("not" : String) ≠ "$disjunction" := by decide
  simp only [solveSingle.go, hnd, if_false, findRelationValues]
  rw [M.bind_run, M.bind_ok (M.gets_run _ _), findRelations_core (hp _) (f := coreNot) rfl]
  simp only [queryRelations, M.bind_run, coreNot]
  core_eval
  rw [ha, Option.getD_some]
  cases api.solve body b (st.put ((st.get v).add "not") v) with
  | err => rfl
  | oof => rfl
  | ok w' r =>
    have he : extendRow b [a] [.none] b false = .ok (b, false) := by rw [extendRow_none ha]; rfl
    cases hr : r.len with
    | zero => simp [Res.map, hr, dedupRows_singleton, resultsOf_one (by rfl) w' he]
    | succ k => simp [Res.map, hr, dedupRows, resultsOf]

/-- **C99** (inside) A disjunction is counted under its own name, then its first alternative is asked. If that has answers no other alternative is counted;
if it has none, the others are like the disjunction without it, which is not counted again. -/
theorem C99_disjunction (n : Nat) (d : Value) (ds : List Value) {v' : V} {r : SolOut}
    (h : (solverStats st true mods n).solve d b (st.put ((st.get v).add "$disjunction") v) = .ok v' r) :
    (solverStats st true mods (n + 1)).solve (query1 "$disjunction" [.list (d :: ds)]) b v =
      if 0 < r.len then .ok v' r
      else solveDisjuncts (solverStats st true mods n) b ds v' := by
  show solveSingleStats st true (solverStats st true mods n) mods (.tuple [.str "$disjunction", .list (d :: ds)]) b v = _
  simp only [solveSingleStats, countCall, if_true]
  rw [M.bind_ok (M.modify_run _ _)]
  simp only [solveSingle.go, if_true, solveDisjuncts]
  rw [M.bind_ok h]
  split <;> rfl

/-- **C99** (lists) An atom that is a list is counted like one that is a tuple. -/
theorem C99_list_atom (log : Bool) (n : Nat) (p : String) (args : List Value) :
    (solverStats st log mods n).solve (.list [.list (.str p :: args)]) b v = (solverStats st log mods n).solve (.list [.tuple (.str p :: args)]) b v := by
  cases n <;> rfl

end

/-! ## The log -/

theorem statLine_injective {kv kv' : String × Nat} (h : statLine kv = statLine kv') : kv = kv' := by
  obtain ⟨p, n⟩ := kv
  obtain ⟨p', n'⟩ := kv'
  simp only [statLine] at h
  have hd : ∀ (a b : List Char), (∀ c ∈ a, c.isDigit = true) → (∀ c ∈ b, c.isDigit = true) → ∀ (x y : List Char), x ++ [':', ' '] ++ a = y ++ [':', ' '] ++ b →
      x = y ∧ a = b := by
    intro a b ha hb x y e
    have e' := congrArg List.reverse e
    simp only [List.reverse_append, List.reverse_cons, List.reverse_nil, List.nil_append, List.cons_append] at e'
    have ha' : ∀ c ∈ a.reverse, c.isDigit = true := fun c hc => ha c (List.mem_reverse.1 hc)
    have hb' : ∀ c ∈ b.reverse, c.isDigit = true := fun c hc => hb c (List.mem_reverse.1 hc)
    have key : ∀ (a b : List Char), (∀ c ∈ a, c.isDigit = true) → (∀ c ∈ b, c.isDigit = true) → ∀ x y, a ++ ' ' :: x = b ++ ' ' :: y → a = b ∧ x = y := by
      intro a
      induction a with
      | nil =>
        intro b _ hb x y e
        cases b with
        | nil => simpa using e
        | cons c b =>
          simp only [List.nil_append, List.cons_append, List.cons.injEq] at e
          have := hb c (by simp)
          rw [← e.1] at this
          cases this
      | cons c a ih =>
        intro b ha hb x y e
        cases b with
        | nil =>
          simp only [List.nil_append, List.cons_append, List.cons.injEq] at e
          have := ha c (by simp)
          rw [e.1] at this
          cases this
        | cons d b =>
          simp only [List.cons_append, List.cons.injEq] at e
          obtain ⟨rfl, h2⟩ := ih b (fun c hc => ha c (by simp [hc])) (fun c hc => hb c (by simp [hc])) x y e.2
          exact ⟨by rw [e.1], h2⟩
    obtain ⟨h1, h2⟩ := key a.reverse b.reverse ha' hb' (':' :: x.reverse) (':' :: y.reverse) (by simpa using e')
    exact ⟨List.reverse_inj.1 (by simpa using h2), List.reverse_inj.1 h1⟩
  obtain ⟨h1, h2⟩ := hd _ _ (showNat_isDigit n) (showNat_isDigit n') _ _ h
  rw [showNat_injective h2, String.ext h1]

theorem joinText_injective {xs ys : List Str} (hx : ∀ x ∈ xs, x ≠ [] ∧ '\n' ∉ x) (hy : ∀ y ∈ ys, y ≠ [] ∧ '\n' ∉ y)
    (h : joinText ['\n'] xs = joinText ['\n'] ys) : xs = ys := by
  have key : ∀ (a b : Str), '\n' ∉ a → '\n' ∉ b → ∀ x y, a ++ '\n' :: x = b ++ '\n' :: y → a = b ∧ x = y := by
    intro a
    induction a with
    | nil =>
      intro b _ hb x y e
      cases b with
      | nil => simpa using e
      | cons c b =>
        simp only [List.nil_append, List.cons_append, List.cons.injEq] at e
        exact absurd (by rw [← e.1]; simp) hb
    | cons c a ih =>
      intro b ha hb x y e
      cases b with
      | nil =>
        simp only [List.nil_append, List.cons_append, List.cons.injEq] at e
        exact absurd (by rw [e.1]; simp) ha
      | cons d b =>
        simp only [List.cons_append, List.cons.injEq] at e
        obtain ⟨rfl, h2⟩ := ih b (fun hc => ha (by simp [hc])) (fun hc => hb (by simp [hc])) x y e.2
        exact ⟨by rw [e.1], h2⟩
  induction xs generalizing ys with
  | nil =>
    cases ys with
    | nil => rfl
    | cons y ys =>
      cases ys with
      | nil => exact absurd h.symm (hy y (by simp)).1
      | cons z zs =>
        simp only [joinText] at h
        exact absurd h.symm (by simp)
  | cons x xs ih =>
    cases ys with
    | nil =>
      cases xs with
      | nil => exact absurd h (hx x (by simp)).1
      | cons z zs =>
        simp only [joinText] at h
        exact absurd h (by simp)
    | cons y ys =>
      have ihc := fun h => ih (ys := ys) (fun a ha => hx a (by simp [ha])) (fun a ha => hy a (by simp [ha])) h
      cases xs with
      | nil =>
        cases ys with
        | nil => simp only [joinText] at h; rw [h]
        | cons z zs =>
          simp only [joinText] at h
          exact absurd (by rw [h]; simp) (hx x (by simp)).2
      | cons x2 xs =>
        cases ys with
        | nil =>
          simp only [joinText] at h
          exact absurd (by rw [← h]; simp) (hy y (by simp)).2
        | cons y2 ys =>
          simp only [joinText, List.append_assoc, List.singleton_append] at h
          obtain ⟨rfl, h2⟩ := key x y (hx x (by simp)).2 (hy y (by simp)).2 _ _ h
          rw [ihc h2]

/-- **C99** (the log) What is logged about the answers and the statistics tells the statistics: two that are logged the same are the same, with the predicates in
the same order. The names of predicates are on one line. -/
theorem C99_logged {out : SolOut} {s s' : Stats} (hs : ∀ kv ∈ s, '\n' ∉ kv.1.toList) (hs' : ∀ kv ∈ s', '\n' ∉ kv.1.toList)
    (h : executedEntries out s = executedEntries out s') : s = s' := by
  simp only [executedEntries] at h
  have h := List.append_cancel_left h
  have hline : ∀ t : Stats, (∀ kv ∈ t, '\n' ∉ kv.1.toList) → ∀ x ∈ t.map statLine, x ≠ [] ∧ '\n' ∉ x := by
    intro t ht x hx
    obtain ⟨kv, hkv, rfl⟩ := List.mem_map.1 hx
    refine ⟨by simp [statLine], fun hm => ?_⟩
    simp only [statLine, List.mem_append, List.mem_cons, List.not_mem_nil, or_false] at hm
    rcases hm with (hm | hm | hm) | hm
    · exact ht kv hkv hm
    · cases hm
    · cases hm
    · exact absurd (showNat_isDigit _ _ hm) (by decide)
  by_cases e : s = [] <;> by_cases e' : s' = []
  · rw [e, e']
  · simp [e, e'] at h
  · simp [e, e'] at h
  · simp only [if_neg e, if_neg e', List.cons.injEq, true_and, and_true, entry] at h
    have h := List.append_cancel_right h
    have := joinText_injective (hline s hs) (hline s' hs') h
    exact (List.map_inj_right fun _ _ => statLine_injective).1 this

/-! ## Examples -/

namespace Ex

/-- Who has a grandparent: the first atom is asked for once, the second once for each of its three answers. -/
example : (solverStats (Lens.id Stats) true (modelOf ([family].map (tableModule Stats))) 3).solve
    (toQuery [("parent", [.var "A", .var "B"]), ("parent", [.var "B", .var "C"])]) [] [] =
    .ok [("parent", 4)] (.rows [[("A", .str "ann"), ("B", .str "bob"), ("C", .str "cas")], [("A", .str "bob"), ("B", .str "cas"), ("C", .str "dan")]]) := by
  rfl

/-- The hypotheses of `C99_tables` are met by the same question. -/
example : ∃ (bs : List Binding) (s' : Stats) (k : Nat → Nat),
    (solverStats (Lens.id Stats) true (modelOf ([family].map (tableModule Stats))) 3).solve
      (toQuery [("parent", [.var "A", .var "B"]), ("parent", [.var "B", .var "C"])]) [] [] = .ok s' (.rows bs) ∧
    (∀ i < 2, Ways [family] (([("parent", [.var "A", .var "B"]), ("parent", [.var "B", .var "C"])] : Query).take i) [] (k i)) ∧
    s'.get "parent" = if k 0 + k 1 = 0 then none else some (k 0 + k 1) := by
  obtain ⟨bs, s', k, h1, h2, h3⟩ := C99_tables (programOk_world tables_ok) 2
    (q := [("parent", [.var "A", .var "B"]), ("parent", [.var "B", .var "C"])]) (by simp [QueryOk, ArgsOk, Value.isVar]) plainB_nil []
  refine ⟨bs, s', k, h1, h2, ?_⟩
  rw [h3]
  simp [totalFor, Dict.get]

/-- Tables and rules, with and without statistics: the same answers. -/
example (log : Bool) (n : Nat) (w : InfState) (s : Stats) :
    ((solverStats (Lens.snd InfState Stats) log (modelOf ([LibraryModule.table family, .rules (Lens.id InfState)].map LibraryModule.withStats)) n).solve
      (toQuery [("ancestor", [.var "A", .str "dan"])]) [] (w, s)).mapWorld Prod.fst =
    (solverAt (modelOf [tableModule InfState family, inferenceModule (Lens.id InfState)]) n).solve (toQuery [("ancestor", [.var "A", .str "dan"])]) [] w :=
  C98_library _ log n _ _ w s

/-- A negation and what is in it. -/
example : (solverStats (Lens.id Stats) true (modelOf ([family].map (tableModule Stats))) 3).solve
    (query1 "not" [toQuery [("parent", [.var "A", .var "B"]), ("parent", [.var "B", .str "ann"])]]) [] [] = .ok [("not", 1), ("parent", 4)] (.rows [[]]) := by
  rfl

example : ∀ s, NotDefined ([family].map (tableModule Stats)) ((Lens.id Stats).put s []) "not" := by
  intro s m hm
  simp only [List.map_cons, List.map_nil, List.mem_singleton] at hm
  subst hm
  rfl

/-- The second of two alternatives. -/
example : (solverStats (Lens.id Stats) true (modelOf ([family].map (tableModule Stats))) 3).solve
    (query1 "$disjunction" [.list [toQuery [("parent", [.var "A", .str "ann"])], toQuery [("parent", [.var "A", .str "bob"])]]]) [] [] =
      .ok [("$disjunction", 1), ("parent", 2)] (.rows [[("A", .str "ann")]]) := by
  rfl

/-- Statistics that are logged differently. -/
example : executedEntries (.rows []) [("parent", 4)] ≠ executedEntries (.rows []) [("parent", 14)] :=
  fun h => absurd (C99_logged (by decide) (by decide) h) (by decide)

end Ex

end Verif
