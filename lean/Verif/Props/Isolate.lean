import Verif.IsolateLemmas
import Verif.Props.Datalog
import Verif.Props.Core1
import Verif.Props.SortByCost
import Verif.Props.FrontResolve

/-!
# C47, C48: optimisation does not change the answers
-/

namespace Verif

variable {W : Type}

/-- The constants among the arguments have no variables inside. -/
def NoNested (q : Query) : Prop := ∀ a ∈ q, ∀ v ∈ a.2, v.isVar = false → varsOf v = []

theorem varsOf_toAtom {q : Query} (hq : NoNested q) {a : String × List Value} (ha : a ∈ q) (x : String) :
    x ∈ varsOf (toAtom a) ↔ .var x ∈ a.2 := by
  simp only [toAtom, varsOf, mem_varsOfList]
  constructor
  · rintro ⟨v, hv, hx⟩
    rcases List.mem_cons.1 hv with rfl | hv
    · simp [varsOf] at hx
    · cases hvv : v.isVar with
      | false => rw [hq a ha v hv hvv] at hx; simp at hx
      | true =>
        cases v <;> simp [Value.isVar] at hvv
        simp only [varsOf, List.mem_singleton] at hx
        subst hx; exact hv
  · intro h; exact ⟨.var x, by simp [h], by simp [varsOf]⟩

theorem toAtom_inj {a b : String × List Value} (h : toAtom a = toAtom b) : a = b := by
  obtain ⟨p, as⟩ := a; obtain ⟨p', bs⟩ := b
  simp [toAtom] at h
  exact Prod.ext h.1 h.2

/-- All atoms of the query are consequences of the program under the assignment. -/
def AllTrue (P : Program) (q : Query) (σ : Assignment) : Prop := ∀ a ∈ q, Derivable P a.1 (a.2.map (inst σ))

/-- The run returns bindings as specified and leaves the world alone; unless `fin` is set, it may also fail to return. -/
def Ends (fin : Bool) (w : W) (r : Res W SolOut) (Q : List Binding → Prop) : Prop :=
  (fin = false ∧ r = .oof) ∨ ∃ bs, r = .ok w (.rows bs) ∧ Q bs

/-- Evaluating `gs`, when the variables `H` are bound, gives answers to the query `q`: answers bind only variables of `q`, all of the
roots that are in `q`, and can be completed to an assignment that makes `q` true; every such assignment is covered. -/
def Evaluates (fin : Bool) (mods : List (Module W)) (n : Nat) (w : W) (P : Program) (H roots : List String) (q : Query)
    (gs : List Value) : Prop :=
  ∀ b, PlainB b → (∀ x ∈ H, b.has x = true) → Ends fin w (solveAtoms (solverAt mods n) mods gs b w) fun bs =>
    (∀ b' ∈ bs, PlainB b' ∧ Extends b b' ∧ (∀ x, b'.has x = true → b.has x = true ∨ x ∈ queryVars q) ∧
      (∀ x ∈ roots, x ∈ queryVars q → b'.has x = true) ∧ ∃ σ : Assignment, (∀ x, Plain (σ x)) ∧ Agrees σ b' ∧ AllTrue P q σ) ∧
    (∀ σ : Assignment, (∀ x, Plain (σ x)) → Agrees σ b → AllTrue P q σ → ∃ b' ∈ bs, Agrees σ b')

/-- At depths from `m` on, single atoms have exactly the answers that the program gives them. -/
def AtomsExact (fin : Bool) (m : Nat) (mods : List (Module W)) (w : W) (P : Program) (ar : String → Option Nat) : Prop :=
  ∀ n, m ≤ n → ∀ (a : String × List Value) (b : Binding), QueryOk ar [a] → PlainB b →
    Ends fin w (solveSingle (solverAt mods n) mods (toAtom a) b w) fun bs =>
      (∀ b' ∈ bs, PlainB b' ∧ Extends b b' ∧ (∀ x, b'.has x = true ↔ b.has x = true ∨ .var x ∈ a.2) ∧
        ∀ σ, Agrees σ b' → AllTrue P [a] σ) ∧
      (∀ σ : Assignment, (∀ x, Plain (σ x)) → Agrees σ b → AllTrue P [a] σ → ∃ b' ∈ bs, Agrees σ b')

section
variable {mods : List (Module W)} {n m : Nat} {w : W} {P : Program} {ar : String → Option Nat} {fin : Bool}

/-- Completes a binding to an assignment of proper values. -/
def fill (b : Binding) : Assignment := fun x => (b.get x).getD (.num 0)

theorem fill_agrees (b : Binding) : Agrees (fill b) b := fun x v h => by simp [fill, h]

theorem fill_plain {b : Binding} (h : PlainB b) (x : String) : Plain (fill b x) := by
  simp only [fill]
  cases hx : b.get x with
  | none => exact ⟨by simp, rfl, rfl⟩
  | some v => exact h x v hx

theorem mem_queryVars_cons {a : String × List Value} {q : Query} {x : String} : x ∈ queryVars (a :: q) ↔ .var x ∈ a.2 ∨ x ∈ queryVars q := by
  simp [mem_queryVars]

theorem mem_queryVars_append {q q' : Query} {x : String} : x ∈ queryVars (q ++ q') ↔ x ∈ queryVars q ∨ x ∈ queryVars q' := by
  simp [mem_queryVars, or_and_right, exists_or]

theorem allTrue_congr {q : Query} {σ τ : Assignment} (h : ∀ x ∈ queryVars q, σ x = τ x) (hs : AllTrue P q σ) : AllTrue P q τ := by
  intro a ha
  rw [← map_inst_congr (σ := σ)]
  · exact hs a ha
  · exact fun x hx => h x (mem_queryVars.2 ⟨a, ha, hx⟩)

/-- Over facts and rules, an atom has exactly the answers that follow, if it returns; it does return if the predicates can be ranked. -/
theorem atomsExact {g : W → InfState} {dbs : List (Dict (List (List Value)))} {rs : List HornRule} (hok : ProgramOk W ar dbs rs)
    (hh : Holds mods g w ar dbs rs) (hrr : HeadsBound rs)
    (hfin : fin = true → ∃ rank : String → Nat, Descends (program dbs rs) rank ∧ ∀ p k, ar p = some k → rank p ≤ m) :
    AtomsExact fin m mods w (program dbs rs) ar := by
  intro n hn a b hq hb
  have hwf := holds_wellFormed hok hh
  have hrr' : RangeRestricted (programOf mods g w) := fun p hargs body hr x hx => hrr _ (holds_rules hh hr) x hx
  rcases solve_good hwf (n + 1) hq hb with h | ⟨bs, h, h2, _, h3⟩
  · cases fin with
    | false => exact .inl ⟨rfl, h⟩
    | true =>
      obtain ⟨rank, ⟨level, hr1, hr3⟩, hr2⟩ := hfin rfl
      exact absurd h (solve_level hwf (holds_descend hok hh hr1) n hq
        (callsBelow_single fun vs => Nat.lt_succ_of_le (Nat.le_trans (hr3 _ vs) (Nat.le_trans (hr2 _ _ (hq a (by simp)).1) hn))) hb)
  · refine .inr ⟨bs, h, ?_, ?_⟩
    · intro b' hb'
      obtain ⟨h4, h5, h6, h7⟩ := h2 b' hb'
      exact ⟨h4, h5, fun x => (h6 x).trans (by simp [mem_queryVars]), fun σ hσ c hc =>
        (holds_derivable hok hh (hq c hc).1).1 (h7 σ hσ c hc)⟩
    · intro σ hσp hσ hd
      exact h3 hrr' σ hσp hσ (fun c hc => (holds_derivable hok hh (hq c hc).1).2 (hd c hc))

theorem Evaluates.nil {H roots : List String} : Evaluates fin mods n w P H roots [] [] := by
  intro b hb _
  refine .inr ⟨[b], rfl, ?_, ?_⟩
  · intro b' hb'
    simp only [List.mem_singleton] at hb'
    subst hb'
    exact ⟨hb, Extends.refl _, fun x h => .inl h, by simp [queryVars], fill b', fill_plain hb, fill_agrees b', by simp [AllTrue]⟩
  · intro σ _ hσ _; exact ⟨b, by simp, hσ⟩

theorem Evaluates.mono {H H' roots : List String} {q : Query} {gs : List Value} (h : Evaluates fin mods n w P H roots q gs)
    (hH : ∀ x ∈ H, x ∈ H') : Evaluates fin mods n w P H' roots q gs :=
  fun b hb hd => h b hb fun x hx => hd x (hH x hx)

/-- The same query, with its atoms in another order or number. -/
theorem Evaluates.congr {H roots : List String} {q q' : Query} {gs : List Value} (h : Evaluates fin mods n w P H roots q gs)
    (hq : ∀ a, a ∈ q ↔ a ∈ q') : Evaluates fin mods n w P H roots q' gs := by
  have hv : ∀ x, x ∈ queryVars q ↔ x ∈ queryVars q' := by intro x; simp only [mem_queryVars, hq]
  have hs : ∀ σ, AllTrue P q σ ↔ AllTrue P q' σ := by intro σ; simp only [AllTrue, hq]
  intro b hb hd
  rcases h b hb hd with h | ⟨bs, h1, h2, h3⟩
  · exact .inl h
  refine .inr ⟨bs, h1, ?_, ?_⟩
  · intro b' hb'
    obtain ⟨a1, a2, a3, a4, σ, a5, a6, a7⟩ := h2 b' hb'
    exact ⟨a1, a2, fun x hx => (a3 x hx).imp id (hv x).1, fun x hx hx' => a4 x hx ((hv x).2 hx'), σ, a5, a6, (hs σ).1 a7⟩
  · exact fun σ h4 h5 h6 => h3 σ h4 h5 ((hs σ).2 h6)

/-- Running one atom and then the rest. -/
theorem solveAtoms_cons {api : SolverApi W} {g : Value} {gs : List Value} {b : Binding} {bs1 : List Binding}
    (h1 : solveSingle api mods g b w = .ok w (.rows bs1))
    (h2 : ∀ b1 ∈ bs1, Ends fin w (solveAtoms api mods gs b1 w) fun _ => True) :
    Ends fin w (solveAtoms api mods (g :: gs) b w) fun out =>
      (∀ r ∈ out, ∃ b1 ∈ bs1, ∃ rs, solveAtoms api mods gs b1 w = .ok w (.rows rs) ∧ r ∈ rs) ∧
      (∀ b1 ∈ bs1, ∃ rs, solveAtoms api mods gs b1 w = .ok w (.rows rs) ∧ ∀ r ∈ rs, ∃ r' ∈ out, SameDict r' r) := by
  cases gs with
  | nil =>
    refine .inr ⟨bs1, h1, ?_, ?_⟩
    · intro r hr
      exact ⟨r, hr, [r], rfl, by simp⟩
    · intro b1 hb1
      refine ⟨[b1], rfl, ?_⟩
      intro r hr
      simp only [List.mem_singleton] at hr
      subst hr
      exact ⟨r, hb1, fun _ => rfl⟩
  | cons g2 gs =>
    simp only [solveAtoms]
    rw [M.bind_ok h1]
    dsimp only
    rcases collect_steps (f := solveAtoms api mods (g2 :: gs)) (fun b hb => (h2 b hb).imp (fun h => h.2) (fun ⟨rs, h, _⟩ => ⟨rs, h⟩)) [] with
      h | ⟨out, h3, _, h4, h5⟩
    · cases fin with
      | false => exact .inl ⟨rfl, h⟩
      | true =>
        exfalso
        have : ∀ (bs acc : List Binding), (∀ b ∈ bs, ∃ rs, solveAtoms api mods (g2 :: gs) b w = .ok w (.rows rs)) →
            collect (solveAtoms api mods (g2 :: gs)) bs acc w ≠ .oof := by
          intro bs
          induction bs with
          | nil => intro acc _; simp [collect]
          | cons b bs ih =>
            intro acc hall
            obtain ⟨rs, hrs⟩ := hall b (by simp)
            rw [collect, M.bind_ok hrs]
            exact ih _ fun c hc => hall c (by simp [hc])
        refine this bs1 [] (fun b hb => ?_) h
        rcases h2 b hb with ⟨h, _⟩ | ⟨rs, h, _⟩
        · cases h
        · exact ⟨rs, h⟩
    · refine .inr ⟨out, h3, ?_, h5⟩
      intro r hr
      rcases h4 r hr with h | h
      · simp at h
      · exact h

/-- If the first atom does not return, the list does not. -/
theorem solveAtoms_oof {api : SolverApi W} {g : Value} {gs : List Value} {b : Binding} (h1 : solveSingle api mods g b w = .oof) :
    solveAtoms api mods (g :: gs) b w = .oof := by
  cases gs with
  | nil => exact h1
  | cons g2 gs => simp only [solveAtoms]; rw [M.bind_run, h1]

theorem agrees_sameDict {σ : Assignment} {b b' : Binding} (h : Agrees σ b) (hs : SameDict b' b) : Agrees σ b' :=
  fun x v hx => h x v (by rw [← hs x]; exact hx)

/-- An atom in front. -/
theorem Evaluates.fact (hex : AtomsExact fin m mods w P ar) (hm : m ≤ n) {a : String × List Value}
    (ha : QueryOk ar [a]) {H H' roots : List String} {q : Query} {gs : List Value} (h : Evaluates fin mods n w P H' roots q gs)
    (hH : ∀ x ∈ H', x ∈ H ∨ .var x ∈ a.2) : Evaluates fin mods n w P H roots (a :: q) (toAtom a :: gs) := by
  intro b hb hd
  rcases hex n hm a b ha hb with ⟨h0, h1⟩ | ⟨bs1, h1, h2, h3⟩
  · exact .inl ⟨h0, solveAtoms_oof h1⟩
  have hgs : ∀ b1 ∈ bs1, _ := fun b1 hb1 => h b1 (h2 b1 hb1).1 (fun x hx => ((h2 b1 hb1).2.2.1 x).2 ((hH x hx).imp (hd x) id))
  rcases solveAtoms_cons (fin := fin) h1 (gs := gs) (fun b1 hb1 =>
    (hgs b1 hb1).imp id (fun ⟨rs, hrs, _⟩ => ⟨rs, hrs, trivial⟩)) with h4 | ⟨out, h4, h5, h6⟩
  · exact .inl h4
  refine .inr ⟨out, h4, ?_, ?_⟩
  · intro r hr
    obtain ⟨b1, hb1, rs, hrs, hmem⟩ := h5 r hr
    rcases hgs b1 hb1 with ⟨_, h7⟩ | ⟨rs', hrs', hs, _⟩
    · rw [hrs] at h7; cases h7
    rw [hrs] at hrs'
    simp only [Res.ok.injEq, SolOut.rows.injEq, true_and] at hrs'
    subst hrs'
    obtain ⟨a1, a2, a3, a4, σ, a5, a6, a7⟩ := hs r hmem
    obtain ⟨c1, c2, c3, c4⟩ := h2 b1 hb1
    refine ⟨a1, c2.trans a2, ?_, ?_, σ, a5, a6, ?_⟩
    · intro x hx
      rw [mem_queryVars_cons]
      rcases a3 x hx with h | h
      · rcases (c3 x).1 h with h | h
        · exact .inl h
        · exact .inr (.inl h)
      · exact .inr (.inr h)
    · intro x hx hx'
      rcases mem_queryVars_cons.1 hx' with h | h
      · obtain ⟨v, hv⟩ := (Dict.has_iff _ _).1 ((c3 x).2 (.inr h))
        exact (Dict.has_iff _ _).2 ⟨v, a2 x v hv⟩
      · exact a4 x hx h
    · intro c hc
      rcases List.mem_cons.1 hc with rfl | hc
      · exact c4 σ (a6.mono a2) _ (by simp)
      · exact a7 c hc
  · intro σ hp hσ hst
    obtain ⟨b1, hb1, hag⟩ := h3 σ hp hσ (fun c hc => hst c (by simp at hc; simp [hc]))
    obtain ⟨rs, hrs, h6⟩ := h6 b1 hb1
    rcases hgs b1 hb1 with ⟨_, h7⟩ | ⟨rs', hrs', _, hc⟩
    · rw [hrs] at h7; cases h7
    rw [hrs] at hrs'
    simp only [Res.ok.injEq, SolOut.rows.injEq, true_and] at hrs'
    subst hrs'
    obtain ⟨r, hr, hag'⟩ := hc σ hp hag (fun c hc => hst c (by simp [hc]))
    obtain ⟨r', hr', hs⟩ := h6 r hr
    exact ⟨r', hr', agrees_sameDict hag' hs⟩

/-- Atoms in front. -/
theorem Evaluates.facts (hex : AtomsExact fin m mods w P ar) (hm : m ≤ n) {q1 : Query}
    (hq1 : QueryOk ar q1) {H roots : List String} {q : Query} {gs : List Value} (h : Evaluates fin mods n w P H roots q gs) :
    Evaluates fin mods n w P H roots (q1 ++ q) (q1.map toAtom ++ gs) := by
  induction q1 with
  | nil => exact h
  | cons a q1 ih =>
    exact (ih fun c hc => hq1 c (by simp [hc])).fact hex hm (fun c hc => by simp at hc; subst hc; exact hq1 c (by simp)) (fun x hx => .inl hx)

end

section
variable {ms : List (Module W)} {n m : Nat} {w : W} {P : Program} {ar : String → Option Nat} {fin : Bool}

/-- A separated part in front, if it has no root variables and no variables in common with the rest, other than those bound before. -/
theorem Evaluates.scoped (hsc : NotDefined ms w "scoped") {H roots : List String} {q1 q : Query} {gs1 gs : List Value}
    (hn : fin = true → n ≠ 0)
    (h1 : ∀ k, n = k + 1 → Evaluates fin (modelOf ms) k w P [] [] q1 gs1) (h : Evaluates fin (modelOf ms) n w P H roots q gs)
    (hroots : ∀ x ∈ roots, x ∈ queryVars q1 → x ∈ H) (hshared : ∀ x ∈ queryVars q1, x ∈ queryVars q → x ∈ H) :
    Evaluates fin (modelOf ms) n w P H roots (q1 ++ q) (.tuple [.str "scoped", .list gs1] :: gs) := by
  intro b hb hd
  have hrun := C13_scoped (W := W) ms n w (.list gs1) (.list gs1) b hsc rfl
  cases n with
  | zero =>
    refine .inl ⟨?_, solveAtoms_oof (hrun.trans rfl)⟩
    cases fin with
    | false => rfl
    | true => exact absurd rfl (hn rfl)
  | succ n =>
  rcases h1 n rfl b hb (by simp) with ⟨hf, e0⟩ | ⟨bs0, e0, s0, c0⟩
  · refine .inl ⟨hf, solveAtoms_oof ?_⟩
    have e : (solverAt (modelOf ms) (n + 1)).solve (.list gs1) b w = .oof := e0
    rw [e] at hrun
    exact hrun
  have hsingle : solveSingle (solverAt (modelOf ms) (n + 1)) (modelOf ms) (.tuple [.str "scoped", .list gs1]) b w =
      .ok w (.rows (if bs0.length = 0 then [] else [b])) := by
    have e : (solverAt (modelOf ms) (n + 1)).solve (.list gs1) b w = .ok w (.rows bs0) := e0
    rw [e] at hrun
    exact hrun
  rcases solveAtoms_cons (fin := fin) hsingle (gs := gs) (fun b1 hb1 => by
    have : b1 = b := by
      split at hb1
      · simp at hb1
      · simpa using hb1
    subst this
    exact (h b1 hb hd).imp id (fun ⟨rs, hrs, _⟩ => ⟨rs, hrs, trivial⟩)) with h4 | ⟨out, h4, h5, h6⟩
  · exact .inl h4
  refine .inr ⟨out, h4, ?_, ?_⟩
  · intro r hr
    obtain ⟨b1, hb1, rs', hrs', hmem⟩ := h5 r hr
    split at hb1
    · simp at hb1
    · rename_i hne
      simp only [List.mem_singleton] at hb1
      subst hb1
      rcases h b1 hb hd with ⟨_, h7⟩ | ⟨rs, hrs, hs, hc⟩
      · rw [hrs'] at h7; cases h7
      rw [hrs] at hrs'
      simp only [Res.ok.injEq, SolOut.rows.injEq, true_and] at hrs'
      subst hrs'
      obtain ⟨a1, a2, a3, a4, σ, a5, a6, a7⟩ := hs r hmem
      obtain ⟨b0, hb0⟩ := List.exists_mem_of_length_pos (Nat.pos_of_ne_zero hne)
      obtain ⟨_, c2, _, _, τ, c5, c6, c7⟩ := s0 b0 hb0
      have hτ : Agrees τ b1 := c6.mono c2
      -- on variables that are bound, the two agree
      have hsame : ∀ x, b1.has x = true → τ x = σ x := by
        intro x hx
        obtain ⟨v, hv⟩ := (Dict.has_iff _ _).1 hx
        rw [hτ x v hv, a6 x v (a2 x v hv)]
      refine ⟨a1, a2, fun x hx => (a3 x hx).imp id (fun h => mem_queryVars_append.2 (.inr h)), ?_,
        fun x => if x ∈ queryVars q1 then τ x else σ x, ?_, ?_, ?_⟩
      · intro x hx hx'
        rcases mem_queryVars_append.1 hx' with h' | h'
        · obtain ⟨v, hv⟩ := (Dict.has_iff _ _).1 (hd x (hroots x hx h'))
          exact (Dict.has_iff _ _).2 ⟨v, a2 x v hv⟩
        · exact a4 x hx h'
      · intro x
        dsimp only
        split
        · exact c5 x
        · exact a5 x
      · intro x v hx
        dsimp only
        split
        · rename_i hx1
          rcases a3 x ((Dict.has_iff _ _).2 ⟨v, hx⟩) with h' | h'
          · rw [hsame x h', a6 x v hx]
          · rw [hsame x (hd x (hshared x hx1 h')), a6 x v hx]
        · exact a6 x v hx
      · intro c hcm
        rcases List.mem_append.1 hcm with hcm | hcm
        · exact allTrue_congr (q := q1) (σ := τ) (fun x hx => by simp [hx]) c7 c hcm
        · refine allTrue_congr (q := q) (σ := σ) (fun x hx => ?_) a7 c hcm
          split
          · rename_i hx1
            rw [hsame x (hd x (hshared x hx1 hx))]
          · rfl
  · intro σ hp hσ hst
    obtain ⟨b0, hb0, _⟩ := c0 σ hp hσ (fun c hcm => hst c (List.mem_append.2 (.inl hcm)))
    have hne : ¬ bs0.length = 0 := by
      intro h0
      rw [List.eq_nil_of_length_eq_zero h0] at hb0
      simp at hb0
    obtain ⟨rs', hrs', h6⟩ := h6 b (by simp [hne])
    rcases h b hb hd with ⟨_, h7⟩ | ⟨rs, hrs, hs, hc⟩
    · rw [hrs'] at h7; cases h7
    rw [hrs] at hrs'
    simp only [Res.ok.injEq, SolOut.rows.injEq, true_and] at hrs'
    subst hrs'
    obtain ⟨r, hr, hag⟩ := hc σ hp hσ (fun c hcm => hst c (List.mem_append.2 (.inr hcm)))
    obtain ⟨r', hr', hs'⟩ := h6 r hr
    exact ⟨r', hr', agrees_sameDict hag hs'⟩

theorem map_toAtom_of_mem {q : Query} {l : List Value} (h : ∀ a ∈ l, a ∈ q.map toAtom) : ∃ q' : Query, l = q'.map toAtom ∧ ∀ c ∈ q', c ∈ q := by
  induction l with
  | nil => exact ⟨[], rfl, by simp⟩
  | cons a l ih =>
    obtain ⟨q', h1, h2⟩ := ih fun x hx => h x (by simp [hx])
    obtain ⟨c, hc, rfl⟩ := List.mem_map.1 (h a (by simp))
    refine ⟨c :: q', by simp [h1], ?_⟩
    intro d hd
    rcases List.mem_cons.1 hd with rfl | hd
    · exact hc
    · exact h2 d hd

/-- The batches, each left as it is or separated. -/
theorem Evaluates.batches (hsc : NotDefined ms w "scoped") (hex : AtomsExact fin m (modelOf ms) w P ar) (hm : m ≤ n)
    (hn : fin = true → n ≠ 0) {H roots : List String} {rec : List Value → List Value} {q : Query}
    (hq : QueryOk ar q) (hnn : NoNested q)
    (hrec : ∀ q', (∀ c ∈ q', c ∈ q) → ∀ k, n = k + 1 → Evaluates fin (modelOf ms) k w P [] [] q' (rec (q'.map toAtom)))
    {bs : List AtomBatch} (hsub : ∀ B ∈ bs, ∀ a ∈ B.atoms, a ∈ q.map toAtom)
    (hvars : ∀ B ∈ bs, ∀ x, x ∈ B.vars ↔ ∃ a ∈ B.atoms, x ∈ varsOf a ∧ x ∉ H)
    (hapart : bs.Pairwise fun b c => Apart c.vars b.vars) :
    ∃ q', (∀ c, c ∈ q' ↔ ∃ B ∈ bs, toAtom c ∈ B.atoms) ∧ Evaluates fin (modelOf ms) n w P H roots q' (placeBatches roots rec bs) := by
  induction bs with
  | nil => exact ⟨[], by simp, .nil⟩
  | cons B bs ih =>
    obtain ⟨q2, hm2, he2⟩ := ih (fun C hC => hsub C (by simp [hC])) (fun C hC => hvars C (by simp [hC])) (List.pairwise_cons.1 hapart).2
    obtain ⟨q1, hq1, hsub1⟩ := map_toAtom_of_mem (hsub B (by simp))
    have hm1 : ∀ c, c ∈ q1 ↔ toAtom c ∈ B.atoms := by
      intro c
      rw [hq1]
      constructor
      · exact fun h => List.mem_map.2 ⟨c, h, rfl⟩
      · intro h
        obtain ⟨d, hd, e⟩ := List.mem_map.1 h
        exact toAtom_inj e ▸ hd
    have hok1 : QueryOk ar q1 := fun c hc => hq c (hsub1 c hc)
    have hv1 : ∀ x, x ∈ queryVars q1 → x ∉ H → x ∈ B.vars := by
      intro x hx hxH
      obtain ⟨c, hc, hxc⟩ := mem_queryVars.1 hx
      exact (hvars B (by simp) x).2 ⟨toAtom c, (hm1 c).1 hc, (varsOf_toAtom hnn (hsub1 c hc) x).2 hxc, hxH⟩
    refine ⟨q1 ++ q2, ?_, ?_⟩
    · intro c
      rw [List.mem_append, hm1, hm2]
      simp
    · rw [placeBatches]
      split
      · rw [hq1]
        exact he2.facts hex hm hok1
      · rename_i hsh
        have hsh' : Apart B.vars roots := shares_false_iff.1 (by simpa using hsh)
        have hr := hrec q1 hsub1
        rw [← hq1] at hr
        refine Evaluates.scoped hsc hn hr he2 ?_ ?_
        · intro x hx hx1
          exact Classical.byContradiction fun hxH => hsh' x (hv1 x hx1 hxH) hx
        · intro x hx1 hx2
          refine Classical.byContradiction fun hxH => ?_
          obtain ⟨c, hc, hxc⟩ := mem_queryVars.1 hx2
          obtain ⟨C, hC, hcC⟩ := (hm2 c).1 hc
          have hcq : c ∈ q := by
            obtain ⟨d, hd, e⟩ := List.mem_map.1 (hsub C (by simp [hC]) _ hcC)
            exact toAtom_inj e ▸ hd
          have hxC : x ∈ C.vars := (hvars C (by simp [hC]) x).2 ⟨toAtom c, hcC, (varsOf_toAtom hnn hcq x).2 hxc, hxH⟩
          exact (List.pairwise_cons.1 hapart).1 C hC x hxC (hv1 x hx1 hxH)

theorem isolateN_evaluates (hsc : NotDefined ms w "scoped") (hex : AtomsExact fin m (modelOf ms) w P ar) (k : Nat) :
    ∀ (n : Nat) (roots : List String) (q : Query), m ≤ n → (fin = true → k + m ≤ n) →
    QueryOk ar q → NoNested q → (m = 0 ∨ fin = true) → Evaluates fin (modelOf ms) n w P [] roots q (isolateN k (q.map toAtom) roots) := by
  induction k with
  | zero =>
    intro n roots q hm _ hq hnn _
    cases q with
    | nil => rw [List.map_nil, isolateN]; exact .nil
    | cons a q =>
      have := Evaluates.facts (n := n) (roots := roots) (H := []) hex hm hq .nil
      simp only [List.append_nil] at this
      exact this
  | succ k ih =>
    intro n roots q hm hk hq hnn hz
    cases q with
    | nil => rw [List.map_nil, isolateN]; exact .nil
    | cons a q =>
      have hq' : QueryOk ar q := fun c hc => hq c (by simp [hc])
      have hnn' : NoNested q := fun c hc => hnn c (by simp [hc])
      · rw [List.map_cons, isolateN]
        obtain ⟨⟨b1, b2⟩, b3, _⟩ := collectBatches_spec (q.map toAtom) (varsOf (toAtom a))
        obtain ⟨q', hm', he⟩ := Evaluates.batches (n := n) (roots := roots) (rec := fun atoms => isolateN k atoms []) hsc hex hm
          (fun hf => by have := hk hf; omega) hq' hnn'
          (fun q' hq' k' hk' => ih k' [] q' (by rcases hz with h | h; omega; have := hk h; omega) (fun hf => by have := hk hf; omega)
            (fun c hc => hq c (by simp [hq' c hc])) (fun c hc => hnn c (by simp [hq' c hc])) hz)
          (fun B hB x hx => (b1 x).2 ⟨B, hB, hx⟩) b2 b3
        have he' : Evaluates fin (modelOf ms) n w P (varsOf (toAtom a)) roots q _ := he.congr fun c => by
          rw [hm', ← b1]
          constructor
          · intro h
            obtain ⟨d, hd, e⟩ := List.mem_map.1 h
            exact toAtom_inj e ▸ hd
          · exact fun h => List.mem_map.2 ⟨c, h, rfl⟩
        exact he'.fact hex hm (fun c hc => by simp at hc; subst hc; exact hq c (by simp))
          (fun x hx => .inr ((varsOf_toAtom hnn (by simp) x).1 hx))

/-- What is asked for in the answers: the root variables, and the variables that were bound already. -/
def SameOn (roots : List String) (b : Binding) (b1 b2 : Binding) : Prop :=
  ∀ x, x ∈ roots ∨ b.has x = true → b1.get x = b2.get x

theorem get_eq_of_has {b1 b2 : Binding} {σ : Assignment} (h1 : Agrees σ b1) (h2 : Agrees σ b2) {x : String} (hx : b1.has x = true ↔ b2.has x = true) :
    b1.get x = b2.get x := by
  cases e1 : b1.get x with
  | none =>
    cases e2 : b2.get x with
    | none => rfl
    | some v =>
      obtain ⟨u, hu⟩ := (Dict.has_iff _ _).1 (hx.2 ((Dict.has_iff _ _).2 ⟨v, e2⟩))
      rw [e1] at hu; cases hu
  | some v =>
    obtain ⟨u, hu⟩ := (Dict.has_iff _ _).1 (hx.1 ((Dict.has_iff _ _).2 ⟨v, e1⟩))
    rw [hu, ← h1 x v e1, h2 x u hu]

theorem sameOn_of_evaluates {roots : List String} {q : Query} {b b1 b2 : Binding} {σ : Assignment}
    (d1 : ∀ x, b1.has x = true ↔ b.has x = true ∨ x ∈ queryVars q) (a1 : Agrees σ b1)
    (e2 : Extends b b2) (d2 : ∀ x, b2.has x = true → b.has x = true ∨ x ∈ queryVars q) (r2 : ∀ x ∈ roots, x ∈ queryVars q → b2.has x = true)
    (a2 : Agrees σ b2) : SameOn roots b b1 b2 := by
  intro x hx
  refine get_eq_of_has a1 a2 ?_
  rw [d1]
  constructor
  · intro h
    rcases h with h | h
    · obtain ⟨v, hv⟩ := (Dict.has_iff _ _).1 h
      exact (Dict.has_iff _ _).2 ⟨v, e2 x v hv⟩
    · rcases hx with hx | hx
      · exact r2 x hx h
      · obtain ⟨v, hv⟩ := (Dict.has_iff _ _).1 hx
        exact (Dict.has_iff _ _).2 ⟨v, e2 x v hv⟩
  · exact d2 x

/-- A form of the query that evaluates it has the same answers, as far as the roots are concerned. -/
theorem same_answers (hex : AtomsExact fin m (modelOf ms) w P ar) {n' : Nat} (hm : m ≤ n) {roots : List String} {q q' : Query}
    (hq : QueryOk ar q) (hmem : ∀ a, a ∈ q ↔ a ∈ q') {gs : List Value} (he : Evaluates fin (modelOf ms) n' w P [] roots q' gs) {b : Binding} (hb : PlainB b) :
    Ends fin w ((solverAt (modelOf ms) (n + 1)).solve (toQuery q) b w) fun bs =>
      Ends fin w ((solverAt (modelOf ms) (n' + 1)).solve (.list gs) b w) fun bs' =>
        (∀ b1 ∈ bs, ∃ b2 ∈ bs', SameOn roots b b1 b2) ∧ ∀ b2 ∈ bs', ∃ b1 ∈ bs, SameOn roots b b1 b2 := by
  have he := he.congr fun a => (hmem a).symm
  have hfin : Evaluates fin (modelOf ms) n w P [] (queryVars q) q (q.map toAtom) := by
    have := Evaluates.facts (n := n) (roots := queryVars q) (H := []) hex hm hq .nil
    simpa only [List.append_nil] using this
  rcases hfin b hb (by simp) with h | ⟨bs, g1, g2, g3⟩
  · exact .inl h
  refine .inr ⟨bs, g1, ?_⟩
  rcases he b hb (by simp) with h | ⟨bs', h1, h2, h3⟩
  · exact .inl h
  refine .inr ⟨bs', h1, ?_, ?_⟩
  · intro b1 hb1
    obtain ⟨_, a2, a3, a4, σ, a5, a6, a7⟩ := g2 b1 hb1
    obtain ⟨b2, hb2, hag⟩ := h3 σ a5 (a6.mono a2) a7
    obtain ⟨_, c2, c3, c4, _⟩ := h2 b2 hb2
    refine ⟨b2, hb2, sameOn_of_evaluates (fun x => ⟨a3 x, fun h => ?_⟩) a6 c2 c3 c4 hag⟩
    rcases h with h | h
    · obtain ⟨v, hv⟩ := (Dict.has_iff _ _).1 h
      exact (Dict.has_iff _ _).2 ⟨v, a2 x v hv⟩
    · exact a4 x h h
  · intro b2 hb2
    obtain ⟨_, c2, c3, c4, σ, c5, c6, c7⟩ := h2 b2 hb2
    obtain ⟨b1, hb1, hag⟩ := g3 σ c5 (c6.mono c2) c7
    obtain ⟨_, a2, a3, a4, _⟩ := g2 b1 hb1
    refine ⟨b1, hb1, sameOn_of_evaluates (fun x => ⟨a3 x, fun h => ?_⟩) hag c2 c3 c4 c6⟩
    rcases h with h | h
    · obtain ⟨v, hv⟩ := (Dict.has_iff _ _).1 h
      exact (Dict.has_iff _ _).2 ⟨v, a2 x v hv⟩
    · exact a4 x h h

/-- Both runs returned. -/
theorem Ends.both {w1 w2 : W} {r r' : Res W SolOut} {bs bs' : List Binding} {Q : List Binding → List Binding → Prop}
    (h : Ends fin w r fun bs => Ends fin w r' fun bs' => Q bs bs') (e : r = .ok w1 (.rows bs)) (e' : r' = .ok w2 (.rows bs')) : Q bs bs' := by
  rcases h with ⟨_, h⟩ | ⟨cs, h, ⟨_, h'⟩ | ⟨cs', h', hQ⟩⟩
  · rw [e] at h; cases h
  · rw [e'] at h'; cases h'
  · rw [e] at h; rw [e'] at h'
    simp only [Res.ok.injEq, SolOut.rows.injEq] at h h'
    rw [h.2, h'.2]; exact hQ

theorem Ends.get {r r' : Res W SolOut} {Q : List Binding → List Binding → Prop}
    (h : Ends true w r fun bs => Ends true w r' fun bs' => Q bs bs') : ∃ bs bs', r = .ok w (.rows bs) ∧ r' = .ok w (.rows bs') ∧ Q bs bs' := by
  rcases h with ⟨h, _⟩ | ⟨cs, h, ⟨h', _⟩ | ⟨cs', h', hQ⟩⟩
  · cases h
  · cases h'
  · exact ⟨cs, cs', h, h', hQ⟩

/-- **C47** Over fact tables, isolating the independent parts of a query gives the same answers, as far as the root variables and the
variables that were bound already are concerned. Both forms return, without exception. `n` bounds the nesting; the number of atoms is
enough. -/
theorem C47_isolate {dbs : List (Dict (List (List Value)))} (hsc : NotDefined ms w "scoped") (hf : FactModules ar w ms dbs)
    (hok : ProgramOk W ar dbs []) {q : Query}
    (hq : QueryOk ar q) (hnn : NoNested q) (roots : List String) {b : Binding} (hb : PlainB b) (hn : q.length ≤ n) :
    ∃ bs bs', (solverAt (modelOf ms) (n + 1)).solve (toQuery q) b w = .ok w (.rows bs) ∧
      (solverAt (modelOf ms) (n + 1)).solve (.list (isolate (q.map toAtom) roots)) b w = .ok w (.rows bs') ∧
      (∀ b1 ∈ bs, ∃ b2 ∈ bs', SameOn roots b b1 b2) ∧ ∀ b2 ∈ bs', ∃ b1 ∈ bs, SameOn roots b b1 b2 := by
  have hex := atomsExact (fin := true) (m := 0) hok (holds_tables w ar dbs hok hf) (by simp [HeadsBound]) (fun _ => ⟨fun _ => 0, .of_rank (by simp), by simp⟩)
  exact (same_answers hex (Nat.zero_le _) hq (fun _ => Iff.rfl)
    (isolateN_evaluates hsc hex _ n roots q (Nat.zero_le _) (fun _ => by simpa using hn) hq hnn (.inl rfl)) hb).get

/-- **C47** Over facts and rules, recursive ones included: if the query and its isolated form both return, they have the same answers,
as far as the root variables and the variables that were bound already are concerned. -/
theorem C47_isolate_rules (l : Lens W InfState) {w1 w2 : W} {dbs dbs' : List (Dict (List (List Value)))} {rs : List HornRule}
    {before after : List (Module W)} (hf : FactModules ar w before dbs) (hf' : FactModules ar w after dbs')
    (hok : ProgramOk W ar (dbs ++ dbs') rs) (hrr : HeadsBound rs)
    (hins : insertAll (rs.map HornRule.toRule) InfState.init = .ok (l.get w))
    (hsc : NotDefined (before ++ inferenceModule l :: after) w "scoped") {q : Query}
    (hq : QueryOk ar q) (hnn : NoNested q) (roots : List String) {b : Binding} (hb : PlainB b) {n n' : Nat} {bs bs' : List Binding}
    (h : (solverAt (modelOf (before ++ inferenceModule l :: after)) n).solve (toQuery q) b w = .ok w1 (.rows bs))
    (h' : (solverAt (modelOf (before ++ inferenceModule l :: after)) n').solve (.list (isolate (q.map toAtom) roots)) b w = .ok w2 (.rows bs')) :
    (∀ b1 ∈ bs, ∃ b2 ∈ bs', SameOn roots b b1 b2) ∧ ∀ b2 ∈ bs', ∃ b1 ∈ bs, SameOn roots b b1 b2 := by
  have hex := atomsExact (fin := false) (m := 0) hok (holds_inference l w ar hf hf' rs hok hins) hrr (by simp)
  cases n with
  | zero => cases h
  | succ n =>
    cases n' with
    | zero => cases h'
    | succ n' =>
      exact (same_answers hex (Nat.zero_le n) hq (fun _ => Iff.rfl)
        (isolateN_evaluates hsc hex _ n' roots q (Nat.zero_le _) (by simp) hq hnn (.inl rfl)) hb).both h h'

/-! ## C48 -/

/-- The constants among the arguments are not lists. -/
def NoLists (q : Query) : Prop := ∀ a ∈ q, ∀ v ∈ a.2, ∀ xs, v ≠ .list xs

theorem crossOutBelow_flat {ts : List Value} (h : ∀ v ∈ ts, ∀ xs, v ≠ .list xs) : crossOutBelow ts = ts := by
  induction ts with
  | nil => rfl
  | cons t ts ih =>
    have := ih fun v hv => h v (by simp [hv])
    have ht := h t (by simp)
    cases t <;> simp_all [crossOutBelow]

theorem resolversBelow_flat {ts : List Value} (h : ∀ v ∈ ts, ∀ xs, v ≠ .list xs) : resolversBelow ts = [] := by
  induction ts with
  | nil => rfl
  | cons t ts ih =>
    have := ih fun v hv => h v (by simp [hv])
    have ht := h t (by simp)
    cases t <;> simp_all [resolversBelow]

theorem front_flat {q : Query} (h : NoLists q) :
    resolversOf (q.map toAtom) = (q.filter fun a => a.1 == "resolve_name").map toAtom ∧
      crossOut (q.map toAtom) = (q.filter fun a => !(a.1 == "resolve_name")).map toAtom := by
  induction q with
  | nil => exact ⟨rfl, rfl⟩
  | cons a q ih =>
    obtain ⟨h1, h2⟩ := ih fun c hc => h c (by simp [hc])
    have ha : ∀ v ∈ Value.str a.1 :: a.2, ∀ xs, v ≠ .list xs := by
      intro v hv xs
      rcases List.mem_cons.1 hv with rfl | hv
      · simp
      · exact h a (by simp) v hv xs
    simp only [List.map_cons, resolversOf, crossOut, h1, h2, toAtom, resolversIn, crossOutIn, resolversBelow_flat ha, crossOutBelow_flat ha]
    by_cases hp : a.1 = "resolve_name"
    · have hr : resolverTerms (Value.str a.1 :: a.2) = true := by simp [resolverTerms, hp]
      have hp' : (a.1 == "resolve_name") = true := by simp [hp]
      simp only [hr, if_true, List.nil_append, List.filter_cons, hp', Bool.not_true, Bool.false_eq_true, if_false, List.map_cons, toAtom,
        List.cons_append, and_self]
    · have hr : resolverTerms (Value.str a.1 :: a.2) = false := by simp [resolverTerms, hp]
      have hp' : (a.1 == "resolve_name") = false := by simp [hp]
      simp only [hr, if_false, List.nil_append, List.filter_cons, hp', Bool.not_false, Bool.false_eq_true, if_true, List.map_cons, toAtom,
        List.cons_append, and_self]

theorem not_inAtomList_flat {q : Query} (h : NoLists q) : ¬ InAtomList (.tuple []) (q.map toAtom) := by
  intro h'
  cases h' with
  | here hm =>
    obtain ⟨c, _, e⟩ := List.mem_map.1 hm
    simp [toAtom] at e
  | list hm _ =>
    obtain ⟨c, _, e⟩ := List.mem_map.1 hm
    simp [toAtom] at e
  | arg hm _ hl _ =>
    obtain ⟨c, hc, e⟩ := List.mem_map.1 hm
    simp only [toAtom, Value.tuple.injEq] at e
    subst e
    rcases List.mem_cons.1 hl with e | hl
    · simp at e
    · exact h c hc _ hl _ rfl

/-- The relations tell no size, or one for every argument, and none is 0. -/
def SizesOk (mods : List (Module W)) (w : W) (q : Query) : Prop := ∀ a ∈ q, ∀ r ∈ findRelations mods w a.1,
  r.relationSize = none ∨ (r.argumentSizes.length = a.2.length ∧ some 0 ∉ r.argumentSizes)

theorem prod_ne_zero {l : List Nat} (h : 0 ∉ l) : l.prod ≠ 0 := by
  induction l with
  | nil => simp
  | cons x xs ih =>
    simp only [List.mem_cons, not_or] at h
    rw [List.prod_cons]
    exact Nat.mul_ne_zero (Ne.symm h.1) (ih h.2)

theorem boundSizes_ne_zero {bound : List String} {args : List Value} {sizes : List (Option Nat)} (h : some 0 ∉ sizes) :
    0 ∉ boundSizes bound args sizes := by
  intro h0
  simp only [boundSizes, List.mem_filterMap] at h0
  obtain ⟨p, hp, e⟩ := h0
  have hs := (List.of_mem_zip hp).2
  have : p.2 = some 0 := by
    split at e
    · split at e
      · exact e
      · cases e
    · cases e
    · cases e
    · exact e
  rw [this] at hs
  exact h hs

theorem atomCost_total {mods : List (Module W)} {q : Query} (h : SizesOk mods w q) {a : String × List Value} (ha : a ∈ q) (b : List String) :
    ∃ c, atomCost (findRelations mods w) b (toAtom a) = .ok c := by
  refine maxCost_total fun r hr => ?_
  rcases h a ha r hr with h1 | ⟨h1, h2⟩
  · exact ⟨_, .unknown h1⟩
  · cases hs : r.relationSize with
    | none => exact ⟨_, .unknown hs⟩
    | some size =>
      have hz := prod_ne_zero (boundSizes_ne_zero (bound := b) (args := a.2) h2)
      have hz' : ((boundSizes b a.2 r.argumentSizes).prod : Rat) ≠ 0 := by
        intro h; exact hz (by exact_mod_cast h)
      exact ⟨_, .known hs h1.symm hz (Rat.div_mul_cancel hz')⟩

/-- What optimising comes to: the atoms are reordered, then isolated. -/
theorem optimize_form {q : Query} (hnl : NoLists q) (hsz : SizesOk (modelOf ms) w q) (roots : List String) :
    ∃ q2 : Query, q2.Perm q ∧ optimize (modelOf ms) (q.map toAtom) roots w = .ok w (isolate (q2.map toAtom) roots) := by
  obtain ⟨s1, h1⟩ := (C45_returns (q.map toAtom)).2 (not_inAtomList_flat hnl)
  have e1 := (C45_front h1).1
  obtain ⟨f1, f2⟩ := front_flat hnl
  let q1 : Query := q.filter (fun a => a.1 == "resolve_name") ++ q.filter (fun a => !(a.1 == "resolve_name"))
  have hq1 : s1 = q1.map toAtom := by rw [e1, f1, f2, ← List.map_append]
  have hp1 : q1.Perm q := List.filter_append_perm _ q
  have hlen : ∀ l : Query, l.length ≤ costFuelAll (l.map toAtom) := by
    intro l
    induction l with
    | nil => simp [costFuelAll]
    | cons a l ih =>
      have := costFuel_pos (toAtom a)
      simp only [List.length_cons, List.map_cons, costFuelAll]; omega
  obtain ⟨s2, h2, hp2⟩ := sortByCost_total (findRelations (modelOf ms) w) (costFuelAll (q1.map toAtom)) [] (q1.map toAtom) w
    (by rw [List.length_map]; exact hlen q1)
    (by
      intro a ha x hx hat
      obtain ⟨c, hc, rfl⟩ := List.mem_map.1 ha
      obtain ⟨ts, xs, rfl⟩ := hat
      simp only [toAtom, elements, List.mem_cons, reduceCtorEq, false_or] at hx
      exact hnl c (hp1.mem_iff.1 hc) _ hx _ rfl)
    (by
      intro a ha b
      obtain ⟨c, hc, rfl⟩ := List.mem_map.1 ha
      exact atomCost_total hsz (hp1.mem_iff.1 hc) b)
  obtain ⟨q2, hq2, hp3⟩ : ∃ q2 : Query, s2 = q2.map toAtom ∧ q2.Perm q1 := by
    have : ∀ (l : List Value) (q : Query), (q.map toAtom).Perm l → ∃ q' : Query, l = q'.map toAtom ∧ q'.Perm q := by
      intro l q h
      obtain ⟨q', hl, _⟩ := map_toAtom_of_mem (q := q) (l := l) fun a ha => h.mem_iff.2 ha
      refine ⟨q', hl, ?_⟩
      subst hl
      have hinv : ∀ l : Query, (l.map toAtom).filterMap (fun v => match v with
          | .tuple (.str p :: args) => some (p, args)
          | _ => none) = l := by
        intro l
        induction l with
        | nil => rfl
        | cons a l ih => simp only [List.map_cons, toAtom, List.filterMap_cons, Prod.eta, List.cons.injEq, true_and]; exact ih
      have := h.filterMap (fun v => match v with
          | .tuple (.str p :: args) => some (p, args)
          | _ => none)
      rw [hinv, hinv] at this
      exact this.symm
    exact this s2 q1 hp2
  refine ⟨q2, hp3.trans hp1, ?_⟩
  rw [optimize, h1]
  have hl : (M.lift (.ok s1) : M W _) w = .ok w s1 := rfl
  rw [M.bind_ok hl, hq1]
  have hs : sortComposition (modelOf ms) (q1.map toAtom) w = .ok w s2 := by
    rw [sortComposition, M.bind_ok (M.gets_run _ w)]; exact h2
  rw [M.bind_ok hs, hq2]
  rfl

/-- **C48** Over fact tables, optimising a query succeeds, changes nothing, and the optimised form has the same answers as the query, as
far as the root variables and the variables that were bound already are concerned. -/
theorem C48_optimize {dbs : List (Dict (List (List Value)))} (hsc : NotDefined ms w "scoped") (hf : FactModules ar w ms dbs)
    (hok : ProgramOk W ar dbs []) {q : Query}
    (hq : QueryOk ar q) (hnn : NoNested q) (hnl : NoLists q) (hsz : SizesOk (modelOf ms) w q) (roots : List String) {b : Binding} (hb : PlainB b)
    (hn : q.length ≤ n) :
    ∃ opt bs bs', optimize (modelOf ms) (q.map toAtom) roots w = .ok w opt ∧
      (solverAt (modelOf ms) (n + 1)).solve (toQuery q) b w = .ok w (.rows bs) ∧
      (solverAt (modelOf ms) (n + 1)).solve (.list opt) b w = .ok w (.rows bs') ∧
      (∀ b1 ∈ bs, ∃ b2 ∈ bs', SameOn roots b b1 b2) ∧ ∀ b2 ∈ bs', ∃ b1 ∈ bs, SameOn roots b b1 b2 := by
  have hex := atomsExact (fin := true) (m := 0) hok (holds_tables w ar dbs hok hf) (by simp [HeadsBound]) (fun _ => ⟨fun _ => 0, .of_rank (by simp), by simp⟩)
  obtain ⟨q2, hp, ho⟩ := optimize_form hnl hsz roots
  obtain ⟨bs, bs', h⟩ := (same_answers hex (Nat.zero_le _) hq (fun _ => hp.mem_iff.symm)
    (isolateN_evaluates hsc hex (q2.map toAtom).length n roots q2 (Nat.zero_le _) (fun _ => by rw [Nat.add_zero, List.length_map, hp.length_eq]; exact hn)
      (fun a ha => hq a (hp.mem_iff.1 ha)) (fun a ha => hnn a (hp.mem_iff.1 ha)) (.inl rfl)) hb).get
  exact ⟨_, bs, bs', ho, h⟩

/-- **C48** Over facts and rules, recursive ones included: optimising a query succeeds and changes nothing; if the query and its optimised
form both return, they have the same answers, as far as the root variables and the variables that were bound already are concerned. -/
theorem C48_optimize_rules (l : Lens W InfState) {dbs dbs' : List (Dict (List (List Value)))} {rs : List HornRule}
    {before after : List (Module W)} (hf : FactModules ar w before dbs) (hf' : FactModules ar w after dbs')
    (hok : ProgramOk W ar (dbs ++ dbs') rs) (hrr : HeadsBound rs)
    (hins : insertAll (rs.map HornRule.toRule) InfState.init = .ok (l.get w))
    (hsc : NotDefined (before ++ inferenceModule l :: after) w "scoped") {q : Query}
    (hq : QueryOk ar q) (hnn : NoNested q) (hnl : NoLists q) (hsz : SizesOk (modelOf (before ++ inferenceModule l :: after)) w q)
    (roots : List String) {b : Binding} (hb : PlainB b) :
    ∃ opt, optimize (modelOf (before ++ inferenceModule l :: after)) (q.map toAtom) roots w = .ok w opt ∧
      ∀ (n n' : Nat) (w1 w2 : W) (bs bs' : List Binding),
        (solverAt (modelOf (before ++ inferenceModule l :: after)) n).solve (toQuery q) b w = .ok w1 (.rows bs) →
        (solverAt (modelOf (before ++ inferenceModule l :: after)) n').solve (.list opt) b w = .ok w2 (.rows bs') →
        (∀ b1 ∈ bs, ∃ b2 ∈ bs', SameOn roots b b1 b2) ∧ ∀ b2 ∈ bs', ∃ b1 ∈ bs, SameOn roots b b1 b2 := by
  have hex := atomsExact (fin := false) (m := 0) hok (holds_inference l w ar hf hf' rs hok hins) hrr (by simp)
  obtain ⟨q2, hp, ho⟩ := optimize_form hnl hsz roots
  refine ⟨_, ho, ?_⟩
  intro n n' w1 w2 bs bs' h h'
  cases n with
  | zero => cases h
  | succ n =>
    cases n' with
    | zero => cases h'
    | succ n' =>
      exact (same_answers hex (Nat.zero_le n) hq (fun _ => hp.mem_iff.symm)
        (isolateN_evaluates hsc hex _ n' roots q2 (Nat.zero_le _) (by simp)
          (fun a ha => hq a (hp.mem_iff.1 ha)) (fun a ha => hnn a (hp.mem_iff.1 ha)) (.inl rfl)) hb).both h h'

/-- **C48** If the calls of the rules go down from the ranks of the predicates (without recursion they do, `Descends.of_rank`; for recursion see C92), then
both forms return, at every depth above the ranks plus the number of atoms. -/
theorem C48_optimize_ranked (l : Lens W InfState) {dbs dbs' : List (Dict (List (List Value)))} {rs : List HornRule}
    {before after : List (Module W)} (hf : FactModules ar w before dbs) (hf' : FactModules ar w after dbs')
    (hok : ProgramOk W ar (dbs ++ dbs') rs) (hrr : HeadsBound rs)
    (hins : insertAll (rs.map HornRule.toRule) InfState.init = .ok (l.get w))
    (hsc : NotDefined (before ++ inferenceModule l :: after) w "scoped") {q : Query}
    (hq : QueryOk ar q) (hnn : NoNested q) (hnl : NoLists q) (hsz : SizesOk (modelOf (before ++ inferenceModule l :: after)) w q)
    (roots : List String) {b : Binding} (hb : PlainB b)
    {rank : String → Nat} (hrank : Descends (program (dbs ++ dbs') rs) rank) (hmax : ∀ p k, ar p = some k → rank p ≤ m)
    (hn : q.length + m ≤ n) :
    ∃ opt bs bs', optimize (modelOf (before ++ inferenceModule l :: after)) (q.map toAtom) roots w = .ok w opt ∧
      (solverAt (modelOf (before ++ inferenceModule l :: after)) (n + 1)).solve (toQuery q) b w = .ok w (.rows bs) ∧
      (solverAt (modelOf (before ++ inferenceModule l :: after)) (n + 1)).solve (.list opt) b w = .ok w (.rows bs') ∧
      (∀ b1 ∈ bs, ∃ b2 ∈ bs', SameOn roots b b1 b2) ∧ ∀ b2 ∈ bs', ∃ b1 ∈ bs, SameOn roots b b1 b2 := by
  have hex := atomsExact (fin := true) (m := m) hok (holds_inference l w ar hf hf' rs hok hins) hrr (fun _ => ⟨rank, hrank, hmax⟩)
  obtain ⟨q2, hp, ho⟩ := optimize_form hnl hsz roots
  have hmn : m ≤ n := by omega
  obtain ⟨bs, bs', h⟩ := (same_answers hex hmn hq (fun _ => hp.mem_iff.symm)
    (isolateN_evaluates hsc hex (q2.map toAtom).length n roots q2 hmn (fun _ => by rw [List.length_map, hp.length_eq]; exact hn)
      (fun a ha => hq a (hp.mem_iff.1 ha)) (fun a ha => hnn a (hp.mem_iff.1 ha)) (.inr rfl)) hb).get
  exact ⟨_, bs, bs', ho, h⟩

end

/-! ## Examples -/

/-- Ann's grandchildren who have a child, and someone has a child. -/
def isolateExample : Query := [("parent", [.str "ann", .var "X"]), ("parent", [.var "X", .var "Y"]), ("parent", [.var "Y", .var "Z"]),
  ("parent", [.var "X", .var "U"])]

theorem isolateExample_ok : QueryOk (fun p => if p = "parent" then some 2 else none) isolateExample ∧ NoNested isolateExample ∧
    NoLists isolateExample ∧ NotDefined [tableModule Unit Ex.family] () "scoped" ∧
    SizesOk (modelOf [tableModule Unit Ex.family]) () isolateExample := by
  refine ⟨?_, ?_, ?_, ?_, ?_⟩
  · simp [isolateExample, QueryOk, ArgsOk, Value.isVar, Plain, legal]
  · simp [isolateExample, NoNested, Value.isVar, varsOf]
  · simp [isolateExample, NoLists]
  · intro m hm
    simp only [List.mem_singleton] at hm
    subst hm
    rfl
  · intro a ha r hr
    left
    have hp : a.1 = "parent" := by
      simp [isolateExample] at ha
      rcases ha with rfl | rfl | rfl | rfl <;> rfl
    have hl : findRelations (modelOf [tableModule Unit Ex.family]) () "parent" =
        [tableRelation Unit "parent" [[.str "ann", .str "bob"], [.str "bob", .str "cas"], [.str "cas", .str "dan"]]] := rfl
    rw [hp, hl, List.mem_singleton] at hr
    rw [hr]
    rfl

example : isolate (isolateExample.map toAtom) ["Y"] =
    [.tuple [.str "parent", .str "ann", .var "X"], .tuple [.str "parent", .var "X", .var "Y"], .tuple [.str "parent", .var "Y", .var "Z"],
      .tuple [.str "scoped", .list [.tuple [.str "parent", .var "X", .var "U"]]]] := by decide +kernel

example := C47_isolate (n := 4) (b := []) isolateExample_ok.2.2.2.1 (tableModules_fact _ _ [Ex.family]) Ex.tables_ok isolateExample_ok.1 isolateExample_ok.2.1 ["Y"]
  (by intro x v h; simp at h) (by decide)
example := C48_optimize (n := 4) (b := []) isolateExample_ok.2.2.2.1 (tableModules_fact _ _ [Ex.family]) Ex.tables_ok isolateExample_ok.1 isolateExample_ok.2.1
  isolateExample_ok.2.2.1 isolateExample_ok.2.2.2.2 ["Y"] (by intro x v h; simp at h) (by decide)

/-- The same over recursive rules: Ann's descendants `Y` through `X`, and `X` has a descendant. -/
def isolateRulesExample : Query := [("parent", [.str "ann", .var "X"]), ("ancestor", [.var "X", .var "Y"]), ("ancestor", [.var "X", .var "U"])]

theorem isolateRulesExample_ok : QueryOk Ex.familyAr isolateRulesExample ∧ NoNested isolateRulesExample ∧ NoLists isolateRulesExample ∧
    NotDefined ([tableModule InfState Ex.family] ++ inferenceModule (Lens.id InfState) :: []) Ex.familyState "scoped" ∧
    SizesOk (modelOf ([tableModule InfState Ex.family] ++ inferenceModule (Lens.id InfState) :: [])) Ex.familyState isolateRulesExample := by
  refine ⟨?_, ?_, ?_, ?_, ?_⟩
  · simp [isolateRulesExample, QueryOk, ArgsOk, Value.isVar, Plain, legal, Ex.familyAr]
  · simp [isolateRulesExample, NoNested, Value.isVar, varsOf]
  · simp [isolateRulesExample, NoLists]
  · intro m hm
    simp only [List.singleton_append, List.mem_cons, List.not_mem_nil, or_false] at hm
    rcases hm with rfl | rfl <;> rfl
  · intro a ha r hr
    left
    have hp : a.1 = "parent" ∨ a.1 = "ancestor" := by
      simp [isolateRulesExample] at ha
      rcases ha with rfl | rfl | rfl <;> simp
    have hl : findRelations (modelOf ([tableModule InfState Ex.family] ++ inferenceModule (Lens.id InfState) :: [])) Ex.familyState "parent" =
        [tableRelation InfState "parent" [[.str "ann", .str "bob"], [.str "bob", .str "cas"], [.str "cas", .str "dan"]]] := rfl
    have hl' : findRelations (modelOf ([tableModule InfState Ex.family] ++ inferenceModule (Lens.id InfState) :: [])) Ex.familyState "ancestor" =
        [ruleRelation (Lens.id InfState).get "ancestor"] := rfl
    rcases hp with hp | hp
    · rw [hp, hl, List.mem_singleton] at hr
      rw [hr]
      rfl
    · rw [hp, hl', List.mem_singleton] at hr
      rw [hr]
      rfl

example := C48_optimize_rules (Lens.id InfState) (w := Ex.familyState) (b := []) (dbs := [Ex.family]) (dbs' := []) (tableModules_fact _ _ [Ex.family]) (tableModules_fact _ _ [])
  Ex.family_ok Ex.ancestor_heads Ex.family_inserted isolateRulesExample_ok.2.2.2.1 isolateRulesExample_ok.1 isolateRulesExample_ok.2.1
  isolateRulesExample_ok.2.2.1 isolateRulesExample_ok.2.2.2.2 ["Y"] (by intro x v h; simp at h)

/-- Both forms return: the query has an answer for each `U`, the isolated form does not. -/
example : (solverAt (modelOf ([tableModule InfState Ex.family] ++ inferenceModule (Lens.id InfState) :: [])) 8).solve
      (toQuery isolateRulesExample) [] Ex.familyState = .ok Ex.familyState (.rows [
        [("X", .str "bob"), ("Y", .str "cas"), ("U", .str "cas")], [("X", .str "bob"), ("Y", .str "cas"), ("U", .str "dan")],
        [("X", .str "bob"), ("Y", .str "dan"), ("U", .str "cas")], [("X", .str "bob"), ("Y", .str "dan"), ("U", .str "dan")]]) ∧
    (solverAt (modelOf ([tableModule InfState Ex.family] ++ inferenceModule (Lens.id InfState) :: [])) 8).solve
      (.list (isolate (isolateRulesExample.map toAtom) ["Y"])) [] Ex.familyState = .ok Ex.familyState (.rows [
        [("X", .str "bob"), ("Y", .str "cas")], [("X", .str "bob"), ("Y", .str "dan")]]) := by
  constructor <;> decide +kernel

/-- Rules that can be ranked: `ancestor` above `parent`. -/
theorem grand_ok : ProgramOk InfState Ex.familyAr [Ex.family] Ex.grandRules := by
  refine ⟨Ex.family_ok.notReserved, ?_, Ex.family_ok.rowsOk, ?_⟩
  · intro p k h
    rcases Ex.family_ok.defined p k h with h | ⟨r, hr, e⟩
    · exact .inl h
    · refine .inr ⟨_, List.mem_cons_self, ?_⟩
      simp only [Ex.ancestorRules, List.mem_cons, List.not_mem_nil, or_false] at hr
      rcases hr with rfl | rfl <;> exact e
  · intro r hr
    simp only [Ex.grandRules, List.mem_cons, List.not_mem_nil, or_false] at hr
    subst hr
    refine ⟨rfl, ?_, ?_⟩
    · simp [ArgsOk, Value.isVar]
    · simp [QueryOk, ArgsOk, Value.isVar, Ex.familyAr]

def grandState : InfState :=
  { relations := [("learn_rule", .learnRule), ("ancestor", .handleRule)]
    rules := [("ancestor", Ex.grandRules.map HornRule.toRule)] }

theorem grand_model_ok :
    NotDefined ([tableModule InfState Ex.family] ++ inferenceModule (Lens.id InfState) :: []) grandState "scoped" ∧
    SizesOk (modelOf ([tableModule InfState Ex.family] ++ inferenceModule (Lens.id InfState) :: [])) grandState isolateRulesExample := by
  constructor
  · intro m hm
    simp only [List.singleton_append, List.mem_cons, List.not_mem_nil, or_false] at hm
    rcases hm with rfl | rfl <;> rfl
  · intro a ha r hr
    left
    have hp : a.1 = "parent" ∨ a.1 = "ancestor" := by
      simp [isolateRulesExample] at ha
      rcases ha with rfl | rfl | rfl <;> simp
    have hl : findRelations (modelOf ([tableModule InfState Ex.family] ++ inferenceModule (Lens.id InfState) :: [])) grandState "parent" =
        [tableRelation InfState "parent" [[.str "ann", .str "bob"], [.str "bob", .str "cas"], [.str "cas", .str "dan"]]] := rfl
    have hl' : findRelations (modelOf ([tableModule InfState Ex.family] ++ inferenceModule (Lens.id InfState) :: [])) grandState "ancestor" =
        [ruleRelation (Lens.id InfState).get "ancestor"] := rfl
    rcases hp with hp | hp
    · rw [hp, hl, List.mem_singleton] at hr
      rw [hr]; rfl
    · rw [hp, hl', List.mem_singleton] at hr
      rw [hr]; rfl

example :=
  C48_optimize_ranked (Lens.id InfState) (w := grandState) (m := 1) (n := 4) (dbs := [Ex.family]) (dbs' := [])
    (tableModules_fact _ _ [Ex.family]) (tableModules_fact _ _ []) grand_ok
    (by intro r hr x hx
        simp only [Ex.grandRules, List.mem_cons, List.not_mem_nil, or_false] at hr
        subst hr
        simp [queryVars] at hx ⊢; grind)
    (by decide +kernel) grand_model_ok.1
    isolateRulesExample_ok.1 isolateRulesExample_ok.2.1 isolateRulesExample_ok.2.2.1 grand_model_ok.2
    ["Y"] (b := []) (by intro x v h; simp at h) (rank := fun p => if p = "ancestor" then 1 else 0)
    (.of_rank (by simp [Ex.grandRules]; grind)) (by intro p k _; split <;> omega) (by decide)

/-- Witness that the restriction to stored atoms matters: isolation takes the variables of the first atom to be bound by it. After an
atom that does not bind its variable (a negation), the answers change: the query has one answer, for `X`, and the isolated form, with
root `X`, has one that leaves `X` open. -/
theorem C47_first_atom_must_bind :
    let atoms : List Value := [.tuple [.str "not", .list [.tuple [.str "parent", .var "X", .str "ann"]]],
      .tuple [.str "parent", .str "ann", .var "X"]]
    (solverAt (modelOf [tableModule Unit Ex.family]) 3).solve (.list atoms) [] () = .ok () (.rows [[("X", .str "bob")]]) ∧
      (solverAt (modelOf [tableModule Unit Ex.family]) 3).solve (.list (isolate atoms ["X"])) [] () = .ok () (.rows [[]]) := by
  decide +kernel

end Verif
