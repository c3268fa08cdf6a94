import Verif.Props.Total

/-!
# C87: queries that raise no exception
-/

set_option linter.unusedSimpArgs false

namespace Verif

variable {W : Type}

/-! ## Specification -/

/-- A number, or a variable that has a number. -/
def NumGiven (N : String → Prop) : Value → Prop
  | .num _ => True
  | .var x => N x
  | _ => False

/-- If the argument is a constant, it can be an element of a set: it is not a list and has no lists in it. -/
def HashArg (v : Value) : Prop := v.isVar = false → hashable v = true

/-- The variables that have numbers after the part of the query, if those in `N` have numbers before it. -/
def Form.numbers : Form → (String → Prop) → String → Prop
  | .count x _, N => fun y => N y ∨ y = x
  | .times _ _ x, N => fun y => N y ∨ y = x
  | .assign x v, N => fun y => N y ∨ (y = x ∧ NumGiven N v)
  | _, N => N

mutual
/-- Nothing in this part of a query can go wrong, when the variables in `B` are known and those in `N` have numbers: sizes are compared with
numbers; only numbers are ordered and multiplied; of two sides that should be equal one is known. -/
def Form.Calm : Form → (String → Prop) → (String → Prop) → Prop
  | .atom .., _, _ => True
  | .neg q, B, N => FormsCalm q B N
  | .thereIsNo q, B, N => FormsCalm q B N
  | .thereIs q, B, N => FormsCalm q B N
  | .exactly q _, B, N => FormsCalm q B N
  | .moreThan q n, B, N => FormsCalm q B N ∧ NumGiven N n
  | .fewerThan q n, B, N => FormsCalm q B N ∧ NumGiven N n
  | .all x r q, B, N => FormsCalm r B N ∧ FormsCalm q (Known.more B [x]) N
  | .count _ q, B, N => FormsCalm q B N
  | .either qs, B, N => AltsCalm qs B N
  | .equals a c, B, _ => (Given B a ∨ Given B c) ∧ HashArg a ∧ HashArg c
  | .greater a c, _, N => NumGiven N a ∧ NumGiven N c
  | .less a c, _, N => NumGiven N a ∧ NumGiven N c
  | .assign _ v, _, _ => HashArg v
  | .times a c _, _, N => NumGiven N a ∧ NumGiven N c
/-- Nothing in the query can go wrong. -/
def FormsCalm : List Form → (String → Prop) → (String → Prop) → Prop
  | [], _, _ => True
  | f :: fs, B, N => f.Calm B N ∧ FormsCalm fs (Known.more B f.binds) (f.numbers N)
/-- Nothing in the alternatives can go wrong. -/
def AltsCalm : List (List Form) → (String → Prop) → (String → Prop) → Prop
  | [], _, _ => True
  | q :: qs, B, N => FormsCalm q B N ∧ AltsCalm qs B N
end

/-- The tables and the heads of the rules have no lists. -/
def NoListsIn (tables : List (Dict (List (List Value)))) (rs : List HornRule) : Prop :=
  (∀ db ∈ tables, ∀ p rows, db.get p = some rows → ∀ row ∈ rows, ∀ v ∈ row, hashable v = true) ∧ ∀ r ∈ rs, ∀ v ∈ r.args, HashArg v

/-! ## Values -/

theorem derivable_hashable {tables : List (Dict (List (List Value)))} {rs : List HornRule} (h : NoListsIn tables rs) (hrr : HeadsBound rs)
    {p : String} {vs : List Value} (hd : Derivable (program tables rs) p vs) : ∀ v ∈ vs, hashable v = true := by
  induction hd with
  | fact hf =>
    obtain ⟨db, hdb, rows, hr, hrow⟩ := hf
    exact h.1 db hdb _ rows hr _ hrow
  | @rule p hargs body σ hr _ _ ih =>
    intro v hv
    obtain ⟨a, ha, rfl⟩ := List.mem_map.1 hv
    cases hva : a.isVar with
    | false => rw [inst_const hva]; exact h.2 _ hr a ha hva
    | true =>
      cases a with
      | var x =>
        obtain ⟨a', ha', hx⟩ := mem_queryVars.1 (hrr _ hr x ha)
        exact ih a' ha' _ (List.mem_map.2 ⟨_, hx, rfl⟩)
      | _ => simp [Value.isVar] at hva

theorem mem_argVars {args : List Value} {x : String} : x ∈ argVars args ↔ Value.var x ∈ args := by
  simp only [argVars, List.mem_filterMap]
  constructor
  · rintro ⟨v, hv, h⟩
    cases v <;> simp at h
    exact h ▸ hv
  · exact fun h => ⟨_, h, rfl⟩

section
variable {P : Program} {ar : String → Option Nat}

theorem equals_hash {B : String → Prop} {σ : Assignment} {a c : Value} (hB : ∀ x, B x → hashable (σ x) = true) (he : inst σ a = inst σ c)
    (ha : Given B a) (hh : HashArg a) {x : String} (hx : .var x ∈ [a, c]) : hashable (σ x) = true := by
  have h1 : hashable (inst σ a) = true := by
    cases a with
    | var y => exact hB y ha
    | _ => rw [inst_const rfl]; exact hh rfl
  simp only [List.mem_cons, List.not_mem_nil, or_false] at hx
  rcases hx with rfl | rfl
  · exact h1
  · rw [he] at h1; exact h1

mutual
/-- The variables that get values get hashable ones. -/
theorem sat_hash (hP : ∀ p vs, Derivable P p vs → ∀ v ∈ vs, hashable v = true) :
    ∀ (f : Form) {B N : String → Prop} {σ : Assignment}, f.Ok ar B → f.Calm B N → (∀ x, B x → hashable (σ x) = true) → Sat P f B σ →
      ∀ x ∈ f.binds, hashable (σ x) = true
  | .atom p args, B, N, σ, _, _, _, hs, x, hx => by
    simp only [Sat] at hs
    simp only [Form.binds, mem_argVars] at hx
    exact hP _ _ hs _ (List.mem_map.2 ⟨_, hx, rfl⟩)
  | .all y r q, B, N, σ, hok, hc, hB, hs, x, hx => by
    simp only [Sat] at hs
    simp only [Form.Ok] at hok
    simp only [Form.Calm] at hc
    simp only [Form.binds, List.mem_singleton] at hx
    subst hx
    obtain ⟨⟨τ, hτ, hS, he⟩, _⟩ := hs
    rw [← he]
    exact sat_hash_all hP r hok.2.2.1 hc.1 (fun z hz => by rw [hτ.2 z hz]; exact hB z hz) hS x hok.2.1
  | .count y q, B, N, σ, _, _, _, hs, x, hx => by
    simp only [Sat] at hs
    simp only [Form.binds, List.mem_singleton] at hx
    subst hx
    obtain ⟨k, _, h⟩ := hs
    rw [h]; rfl
  | .either qs, B, N, σ, hok, hc, hB, hs, x, hx => by
    simp only [Sat] at hs
    simp only [Form.Ok] at hok
    simp only [Form.Calm] at hc
    simp only [Form.binds] at hx
    exact sat_hash_first hP qs (altBinds qs) hok.1 hc hB (fun q hq => hok.2 q hq) hs x hx
  | .equals a c, B, N, σ, _, hc, hB, hs, x, hx => by
    simp only [Sat] at hs
    simp only [Form.Calm] at hc
    simp only [Form.binds, mem_argVars] at hx
    obtain ⟨h1 | h1, h2, h3⟩ := hc
    · exact equals_hash hB hs h1 h2 hx
    · refine equals_hash hB hs.symm h1 h3 (x := x) ?_
      simpa [or_comm] using hx
  | .assign y v, B, N, σ, hok, hc, hB, hs, x, hx => by
    simp only [Sat] at hs
    simp only [Form.Ok] at hok
    simp only [Form.Calm] at hc
    simp only [Form.binds, List.mem_singleton] at hx
    subst hx
    rw [hs]
    cases v with
    | var z => exact hB z hok.2
    | _ => rw [inst_const rfl]; exact hc rfl
  | .times a c y, B, N, σ, _, _, _, hs, x, hx => by
    simp only [Sat] at hs
    simp only [Form.binds, List.mem_singleton] at hx
    subst hx
    obtain ⟨_, _, _, _, h⟩ := hs
    rw [h]; rfl
  | .neg _, _, _, _, _, _, _, _, _, hx => by simp [Form.binds] at hx
  | .thereIsNo _, _, _, _, _, _, _, _, _, hx => by simp [Form.binds] at hx
  | .thereIs _, _, _, _, _, _, _, _, _, hx => by simp [Form.binds] at hx
  | .exactly _ _, _, _, _, _, _, _, _, _, hx => by simp [Form.binds] at hx
  | .moreThan _ _, _, _, _, _, _, _, _, _, hx => by simp [Form.binds] at hx
  | .fewerThan _ _, _, _, _, _, _, _, _, _, hx => by simp [Form.binds] at hx
  | .greater _ _, _, _, _, _, _, _, _, _, hx => by simp [Form.binds] at hx
  | .less _ _, _, _, _, _, _, _, _, _, hx => by simp [Form.binds] at hx
theorem sat_hash_all (hP : ∀ p vs, Derivable P p vs → ∀ v ∈ vs, hashable v = true) :
    ∀ (q : List Form) {B N : String → Prop} {σ : Assignment}, FormsOk ar q B → FormsCalm q B N → (∀ x, B x → hashable (σ x) = true) → SatAll P q B σ →
      ∀ x ∈ formBinds q, hashable (σ x) = true
  | [], _, _, _, _, _, _, _, x, hx => by simp [formBinds] at hx
  | f :: fs, B, N, σ, hok, hc, hB, hs, x, hx => by
    simp only [FormsOk] at hok
    simp only [FormsCalm] at hc
    simp only [SatAll] at hs
    simp only [formBinds, List.mem_append] at hx
    have h1 := sat_hash hP f hok.1 hc.1 hB hs.1
    rcases hx with hx | hx
    · exact h1 x hx
    · exact sat_hash_all hP fs hok.2 hc.2 (fun z hz => hz.elim (hB z) (h1 z)) hs.2 x hx
theorem sat_hash_first (hP : ∀ p vs, Derivable P p vs → ∀ v ∈ vs, hashable v = true) :
    ∀ (qs : List (List Form)) (V : List String) {B N : String → Prop} {σ : Assignment}, AltsOk ar qs B → AltsCalm qs B N → (∀ x, B x → hashable (σ x) = true) →
      (∀ q ∈ qs, ∀ x, Known.more B (formBinds q) x ↔ Known.more B V x) → SatFirst P qs B σ → ∀ x ∈ V, hashable (σ x) = true
  | [], _, _, _, _, _, _, _, _, hs, x, hx => by simp [SatFirst] at hs
  | q :: qs, V, B, N, σ, hok, hc, hB, hV, hs, x, hx => by
    simp only [AltsOk] at hok
    simp only [AltsCalm] at hc
    simp only [SatFirst] at hs
    rcases hs with hs | hs
    · rcases (hV q (by simp) x).2 (.inr hx) with h | h
      · exact hB x h
      · exact sat_hash_all hP q hok.1 hc.1 hB hs x h
    · exact sat_hash_first hP qs V hok.2 hc.2 hB (fun q hq => hV q (by simp [hq])) hs.2 x hx
end

/-- The variables that should have numbers have numbers. -/
theorem sat_numbers {f : Form} {B N : String → Prop} {σ : Assignment} (hN : ∀ x, N x → ∃ r, σ x = .num r) (hs : Sat P f B σ) :
    ∀ x, f.numbers N x → ∃ r, σ x = .num r := by
  intro x hx
  cases f with
  | count y q =>
    simp only [Sat] at hs
    rcases hx with hx | rfl
    · exact hN x hx
    · obtain ⟨k, _, h⟩ := hs
      exact ⟨_, h⟩
  | times a c y =>
    simp only [Sat] at hs
    rcases hx with hx | rfl
    · exact hN x hx
    · obtain ⟨_, _, _, _, h⟩ := hs
      exact ⟨_, h⟩
  | assign y v =>
    simp only [Sat] at hs
    rcases hx with hx | ⟨rfl, hv⟩
    · exact hN x hx
    · rw [hs]
      cases v with
      | num r => exact ⟨r, rfl⟩
      | var z => exact hN z hv
      | _ => exact hv.elim
  | _ => exact hN x hx

end

/-! ## Runs -/

/-- The computation raises no exception. -/
def NoErr {α : Type} (r : Res W α) : Prop := ∀ w e, r ≠ .err w e

theorem map_calm {α β : Type} {r : Res W α} {f : α → β} (h : NoErr r) : NoErr (r.map f) := by
  cases r with
  | ok w a => intro w' e h'; cases h'
  | err w e => exact absurd rfl (h w e)
  | oof => intro w' e h'; cases h'

theorem bind_calm {α β : Type} {x : M W α} {f : α → M W β} {w : W} (h : NoErr (x w)) (hf : ∀ w' a, x w = .ok w' a → NoErr (f a w')) :
    NoErr ((x >>= f) w) := by
  rw [M.bind_run]
  cases hx : x w with
  | oof => intro w' e h'; cases h'
  | err w' e => exact absurd hx (h w' e)
  | ok w' a => exact hf w' a hx

theorem ok_calm {α : Type} {w : W} {a : α} : NoErr (.ok w a) := fun _ _ h => by cases h

/-- Every value of the binding is hashable. -/
def HashB (b : Binding) : Prop := ∀ x v, b.get x = some v → hashable v = true
/-- The variables have numbers. -/
def NumB (N : String → Prop) (b : Binding) : Prop := ∀ x, N x → ∃ r, b.get x = some (.num r)

theorem numGiven_value {N : String → Prop} {b : Binding} (hN : NumB N b) {v : Value} (h : NumGiven N v) : ∃ r, argValue b v = some (.num r) := by
  cases v with
  | num r => exact ⟨r, rfl⟩
  | var x => exact hN x h
  | _ => exact h.elim

section
variable {mods : List (Module W)} {w : W}

theorem collect_calm {f : Binding → M W SolOut} {bs : List Binding}
    (h : ∀ b ∈ bs, NoErr (f b w) ∧ ∀ w1 o, f b w = .ok w1 o → w1 = w ∧ ∃ rs, o = .rows rs) (acc : List Binding) : NoErr (collect f bs acc w) := by
  induction bs generalizing acc with
  | nil => simp only [collect]; exact ok_calm
  | cons b bs ih =>
    simp only [collect]
    refine bind_calm (h b (by simp)).1 fun w1 o h1 => ?_
    obtain ⟨rfl, rs, rfl⟩ := (h b (by simp)).2 _ _ h1
    exact ih (fun b hb => h b (by simp [hb])) _

theorem disjuncts_calm {api : SolverApi W} {b : Binding} {qs : List (List Form)}
    (hq : ∀ q ∈ qs, NoErr (api.solve (.list (formValues q)) b w) ∧ ∀ w1 o, api.solve (.list (formValues q)) b w = .ok w1 o → w1 = w) :
    NoErr (solveDisjuncts api b (altValues qs) w) := by
  induction qs with
  | nil => simp only [altValues, solveDisjuncts]; exact ok_calm
  | cons q qs ih =>
    simp only [altValues, solveDisjuncts]
    refine bind_calm (hq q (by simp)).1 fun w1 o h1 => ?_
    obtain rfl := (hq q (by simp)).2 _ _ h1
    split
    · exact ok_calm
    · exact ih fun q hq' => hq q (by simp [hq'])

theorem allLoop_oof {ctx : Ctx W} {x : String} {body : Value} {es acc : List Value}
    (hw : ∀ e ∈ es, NoErr (ctx.solver.solve body (ctx.binding.union [(x, e)]) w) ∧
      ∀ w1 o, ctx.solver.solve body (ctx.binding.union [(x, e)]) w = .ok w1 o → w1 = w)
    (h : ∃ e ∈ es, ctx.solver.solve body (ctx.binding.union [(x, e)]) w = .oof) : allLoop ctx x body es acc w = .oof := by
  induction es generalizing acc with
  | nil => simp at h
  | cons e es ih =>
    simp only [allLoop]
    rw [M.bind_run]
    cases hs : ctx.solver.solve body (ctx.binding.union [(x, e)]) w with
    | oof => rfl
    | err w1 e1 => exact absurd hs ((hw e (by simp)).1 w1 e1)
    | ok w1 o =>
      obtain rfl := (hw e (by simp)).2 _ _ hs
      refine ih (fun e he => hw e (by simp [he])) ?_
      obtain ⟨e', he', h'⟩ := h
      rcases List.mem_cons.1 he' with rfl | he'
      · rw [hs] at h'; cases h'
      · exact ⟨e', he', h'⟩

theorem all_calm {n : Nat} {b : Binding} (hp : NotDefined mods w "all") {x : String} (hx0 : b.get x = none) {a1 a2 range body : Value}
    (ha1 : argValue b a1 = some range) (ha2 : argValue b a2 = some body)
    (hf : NoErr ((solverAt (modelOf mods) n).solve range b w))
    (hr : ∀ w1 o, (solverAt (modelOf mods) n).solve range b w = .ok w1 o → w1 = w ∧ ∃ rs, o = .rows rs ∧
      ∀ b' ∈ rs, b'.has x = true ∧ PlainB b' ∧ HashB b')
    (hw : ∀ e : Value, Plain e → hashable e = true → NoErr ((solverAt (modelOf mods) n).solve body (b.set x e) w) ∧
      ∀ w1 o, (solverAt (modelOf mods) n).solve body (b.set x e) w = .ok w1 o → w1 = w) :
    NoErr ((solverAt (modelOf mods) (n + 1)).solve (query1 "all" [.var x, a1, a2]) b w) := by
  cases hs : (solverAt (modelOf mods) n).solve range b w with
  | err w1 e => exact absurd hs (hf w1 e)
  | oof =>
    rw [solve_core hp rfl (by decide)]
    simp only [coreAll]
    core_eval
    rw [ha1, ha2]
    simp only [Option.getD_some, hs]
    intro w' e h'
    cases h'
  | ok w1 o =>
    obtain ⟨rfl, rs, rfl, hrs⟩ := hr _ _ hs
    have hg : ∀ b' ∈ rs, b'.get x = some ((b'.get x).getD .none) := by
      intro b1 hb1
      obtain ⟨v, hv⟩ := (Dict.has_iff _ _).1 (hrs b1 hb1).1
      rw [hv]; rfl
    have hpl : ∀ b' ∈ rs, Plain ((b'.get x).getD .none) := fun b' hb' => (hrs b' hb').2.1 x _ (hg b' hb')
    have hha : ∀ b' ∈ rs, hashable ((b'.get x).getD .none) = true := fun b' hb' => (hrs b' hb').2.2 x _ (hg b' hb')
    by_cases hbody : ∀ b' ∈ rs, ∃ o, (solverAt (modelOf mods) n).solve body (b.set x ((b'.get x).getD .none)) w1 = .ok w1 o
    · rw [C17_all mods n w1 b a1 a2 range body hp x hx0 ha1 ha2 rs hs (fun b' => (b'.get x).getD .none) hg
        (fun b' hb' => ⟨hha b' hb', (hpl b' hb').2.2⟩)
        (fun e => match (solverAt (modelOf mods) n).solve body (b.set x e) w1 with
          | .ok _ o => o
          | _ => .rows [])
        (fun b' hb' => by obtain ⟨o, h⟩ := hbody b' hb'; simp only [h])]
      exact ok_calm
    · have hex : ∃ b' ∈ rs, (solverAt (modelOf mods) n).solve body (b.set x ((b'.get x).getD .none)) w1 = .oof := by
        obtain ⟨b', hbody⟩ := Classical.not_forall.1 hbody
        obtain ⟨hb', hno⟩ := Classical.not_imp.1 hbody
        refine ⟨b', hb', ?_⟩
        obtain ⟨k1, k2⟩ := hw _ (hpl b' hb') (hha b' hb')
        cases hb : (solverAt (modelOf mods) n).solve body (b.set x ((b'.get x).getD .none)) w1 with
        | oof => rfl
        | err w2 e => exact absurd hb (k1 w2 e)
        | ok w2 o =>
          obtain rfl := k2 _ _ hb
          exact absurd ⟨o, hb⟩ hno
      rw [solve_core hp rfl (by decide)]
      simp only [coreAll]
      core_eval
      rw [ha1, ha2]
      simp only [Option.getD_some, hs, iterSol, M.pure_run]
      rw [lookupAll_eq hg]
      simp only [M.lift, M.pure_run']
      have hh : ∀ e ∈ rs.map fun b' => (b'.get x).getD .none, hashable e = true := by
        intro e he
        obtain ⟨b', hb', rfl⟩ := List.mem_map.1 he
        exact hha b' hb'
      rw [orderedSet_eq hh, addValue_eraseDups]
      simp only [List.nil_append, M.pure_run']
      obtain ⟨b0, hb0, h0⟩ := hex
      have hmem : ∀ {e}, e ∈ (rs.map fun b' => (b'.get x).getD .none).eraseDups → ∃ b' ∈ rs, (b'.get x).getD .none = e := by
        intro e he
        rw [List.mem_eraseDups] at he
        exact List.mem_map.1 he
      have h0' : (b0.get x).getD .none ∈ (rs.map fun b' => (b'.get x).getD .none).eraseDups := by
        rw [List.mem_eraseDups]; exact List.mem_map.2 ⟨b0, hb0, rfl⟩
      generalize (rs.map fun b' => (b'.get x).getD .none).eraseDups = es at hmem h0'
      cases es with
      | nil => simp at h0'
      | cons e1 es1 =>
        simp only [nameOf, M.bind_run, M.pure_run']
        rw [allLoop_oof (w := w1) (ctx := { predicate := "all", columns := [], arguments := [.var x, a1, a2], binding := b, solver := solverAt (modelOf mods) n })
          (x := x) (body := body) (es := e1 :: es1) (acc := []) (fun e he => by
            obtain ⟨b', hb', rfl⟩ := hmem he
            exact hw _ (hpl b' hb') (hha b' hb')) ⟨_, h0', h0⟩]
        intro w' e h'
        cases h'

/-- Queries in which nothing can go wrong raise no exception at this depth. -/
def FormsCalmAt (mods : List (Module W)) (w : W) (ar : String → Option Nat) (n : Nat) : Prop :=
  ∀ q b N, FormsOk ar q (dom b) → FormsCalm q (dom b) N → PlainB b → HashB b → NumB N b → NoErr ((solverAt (modelOf mods) n).solve (.list (formValues q)) b w)

theorem Exact.calm {V : List String} {S : Assignment → Prop} {b b' : Binding} {bs : List Binding} (h : Exact V S b bs) (hb : b' ∈ bs)
    (hh : HashB b) (hV : ∀ σ : Assignment, (∀ x, dom b x → hashable (σ x) = true) → S σ → ∀ x ∈ V, hashable (σ x) = true) : HashB b' := by
  obtain ⟨s1, s2, s3, s4⟩ := h.sound b' hb
  intro x v hx
  have hB : ∀ x, dom b x → hashable (totalOf b' x) = true := by
    intro y hy
    obtain ⟨u, hu⟩ := (Dict.has_iff _ _).1 hy
    rw [totalOf_agrees b' y u (s2 y u hu)]
    exact hh y u hu
  have hval : totalOf b' x = v := totalOf_agrees b' x v hx
  rcases (s3 x).1 ((Dict.has_iff _ _).2 ⟨v, hx⟩) with h1 | h1
  · rw [← hval]; exact hB x h1
  · rw [← hval]; exact hV _ hB (s4 _ (totalOf_plain s1) (totalOf_agrees b')) x h1

theorem form_calm {ar : String → Option Nat} {P : Program} (H : Base mods w ar P)
    (hP : ∀ p vs, Derivable P p vs → ∀ v ∈ vs, hashable v = true)
    (hat : ∀ n p args b, ar p = some args.length → ArgsOk args → PlainB b → NoErr ((solverAt (modelOf mods) (n + 1)).solve (query1 p args) b w))
    {n : Nat} (ih : FormsCalmAt mods w ar n)
    {f : Form} {b : Binding} {N : String → Prop} (hf : f.Ok ar (dom b)) (hc : f.Calm (dom b) N) (hb : PlainB b) (hh : HashB b) (hN : NumB N b) :
    NoErr ((solverAt (modelOf mods) (n + 1)).solve (.list [f.toValue]) b w) := by
  cases f with
  | atom p args =>
    simp only [Form.Ok] at hf
    simp only [Form.toValue]
    exact hat n p args b hf.1 hf.2 hb
  | neg q =>
    simp only [Form.Ok] at hf
    simp only [Form.Calm] at hc
    simp only [Form.toValue]
    rw [C13_not mods n w _ _ b (H.core _ (by decide)) rfl]
    exact map_calm (ih q b N hf hc hb hh hN)
  | thereIsNo q =>
    simp only [Form.Ok] at hf
    simp only [Form.Calm] at hc
    simp only [Form.toValue]
    rw [C13_none mods n w _ _ b (H.core _ (by decide)) rfl]
    exact map_calm (ih q b N hf hc hb hh hN)
  | thereIs q =>
    simp only [Form.Ok] at hf
    simp only [Form.Calm] at hc
    simp only [Form.toValue]
    rw [C13_scoped mods n w _ _ b (H.core _ (by decide)) rfl]
    exact map_calm (ih q b N hf hc hb hh hN)
  | exactly q c =>
    simp only [Form.Ok] at hf
    simp only [Form.Calm] at hc
    obtain ⟨v, hv, _, hi⟩ := given_value hb hf.2
    simp only [Form.toValue]
    rw [run_det_equals (H.core _ (by decide)) rfl hv]
    exact map_calm (ih q b N hf.1 hc hb hh hN)
  | moreThan q c =>
    simp only [Form.Ok] at hf
    simp only [Form.Calm] at hc
    obtain ⟨r, hv⟩ := numGiven_value hN hc.2
    simp only [Form.toValue]
    rw [C14_det_greater_than mods n w _ _ b (H.core _ (by decide)) rfl _ _ hv]
    exact map_calm (ih q b N hf.1 hc.1 hb hh hN)
  | fewerThan q c =>
    simp only [Form.Ok] at hf
    simp only [Form.Calm] at hc
    obtain ⟨r, hv⟩ := numGiven_value hN hc.2
    simp only [Form.toValue]
    rw [C14_det_less_than mods n w _ _ b (H.core _ (by decide)) rfl _ _ hv]
    exact map_calm (ih q b N hf.1 hc.1 hb hh hN)
  | count x q =>
    simp only [Form.Ok] at hf
    simp only [Form.Calm] at hc
    have hx0 : b.get x = .none := (Dict.has_false_iff _ _).1 (by simpa [dom] using hf.1)
    simp only [Form.toValue]
    rw [C14_count mods n w _ _ b (H.core _ (by decide)) rfl x hx0]
    exact map_calm (ih q b N hf.2 hc hb hh hN)
  | all x r q =>
    simp only [Form.Ok] at hf
    simp only [Form.Calm] at hc
    obtain ⟨hnb, hxr, hr, hq⟩ := hf
    have hx0 : b.get x = .none := (Dict.has_false_iff _ _).1 (by simpa [dom] using hnb)
    simp only [Form.toValue]
    refine all_calm (H.core _ (by decide)) hx0 rfl rfl (ih r b N hr hc.1 hb hh hN) ?_ ?_
    · intro w1 o h1
      obtain ⟨e1, rs, e2, hx⟩ := forms_exact H.toIn n r b hr (formsCalled_any r _) hb _ _ h1
      exact ⟨e1, rs, e2, fun b' hb' => ⟨((hx.sound b' hb').2.2.1 x).2 (.inr hxr), (hx.sound b' hb').1,
        hx.calm hb' hh fun σ hB hS => sat_hash_all hP r hr hc.1 hB hS⟩⟩
    · intro e he hhe
      have hq' : FormsOk ar q (dom (b.set x e)) := by rw [dom_set]; exact hq
      have hc' : FormsCalm q (dom (b.set x e)) N := by rw [dom_set]; exact hc.2
      refine ⟨ih q _ N hq' hc' (plainB_set hb he) ?_ ?_, fun w1 o h1 => (forms_exact H.toIn n q _ hq' (formsCalled_any q _) (plainB_set hb he) _ _ h1).1⟩
      · intro y v hy
        by_cases hyx : y = x
        · subst hyx; simp at hy; exact hy ▸ hhe
        · rw [Dict.get_set_of_ne _ _ (Ne.symm hyx)] at hy
          exact hh y v hy
      · intro y hy
        obtain ⟨r, hr⟩ := hN y hy
        have hyx : y ≠ x := by rintro rfl; rw [hx0] at hr; cases hr
        exact ⟨r, by rw [Dict.get_set_of_ne _ _ (Ne.symm hyx)]; exact hr⟩
  | either qs =>
    simp only [Form.Ok] at hf
    simp only [Form.Calm] at hc
    show NoErr (solveDisjuncts (solverAt (modelOf mods) n) b (altValues qs) w)
    have hcs : ∀ q ∈ qs, FormsCalm q (dom b) N := by
      intro q hq
      have : ∀ qs : List (List Form), AltsCalm qs (dom b) N → q ∈ qs → FormsCalm q (dom b) N := by
        intro qs
        induction qs with
        | nil => simp
        | cons q' qs ihq =>
          intro h hq
          simp only [AltsCalm] at h
          rcases List.mem_cons.1 hq with rfl | hq
          · exact h.1
          · exact ihq h.2 hq
      exact this qs hc hq
    exact disjuncts_calm fun q hq => ⟨ih q b N (altsOk_iff.1 hf.1 q hq) (hcs q hq) hb hh hN, fun w1 o h1 =>
      (forms_exact H.toIn n q b (altsOk_iff.1 hf.1 q hq) (formsCalled_any q _) hb _ _ h1).1⟩
  | equals a c =>
    simp only [Form.Ok] at hf
    simp only [Form.Calm] at hc
    simp only [Form.toValue]
    have hsome : ∀ v, Given (dom b) v → ∃ u, argValue b v = some u := fun v hv => by
      obtain ⟨u, hu, _⟩ := given_value hb hv
      exact ⟨u, hu⟩
    cases ha : argValue b a with
    | none =>
      obtain ⟨x, rfl, hx⟩ := argValue_none ha
      cases hcc : argValue b c with
      | none =>
        rcases hc.1 with h | h
        · obtain ⟨u, hu⟩ := hsome _ h; rw [ha] at hu; cases hu
        · obtain ⟨u, hu⟩ := hsome _ h; rw [hcc] at hu; cases hu
      | some v =>
        obtain ⟨hv, hi⟩ := argsOk_value hb (hf c (by simp)) hcc
        rw [C60_equals_binds_left mods n w b _ (H.core _ (by decide)) x hx v hcc hv.1]; exact ok_calm
    | some u =>
      obtain ⟨hu, hia⟩ := argsOk_value hb (hf a (by simp)) ha
      cases hcc : argValue b c with
      | none =>
        obtain ⟨y, rfl, hy⟩ := argValue_none hcc
        rw [C60_equals_binds_right mods n w b _ (H.core _ (by decide)) y hy u ha hu.1]; exact ok_calm
      | some v =>
        obtain ⟨hv, hic⟩ := argsOk_value hb (hf c (by simp)) hcc
        rw [C60_equals_bound mods n w b _ _ (H.core _ (by decide)) u v ha hcc hu.1 hv.1]; exact ok_calm
  | greater a c =>
    simp only [Form.Calm] at hc
    simp only [Form.toValue]
    obtain ⟨u, ha⟩ := numGiven_value hN hc.1
    obtain ⟨v, hcc⟩ := numGiven_value hN hc.2
    rw [run_greater (H.core _ (by decide)) ha hcc (by simp) (by simp)]
    simp only [pyLt]
    exact ok_calm
  | less a c =>
    simp only [Form.Calm] at hc
    simp only [Form.toValue]
    obtain ⟨u, ha⟩ := numGiven_value hN hc.1
    obtain ⟨v, hcc⟩ := numGiven_value hN hc.2
    rw [run_less (H.core _ (by decide)) ha hcc (by simp) (by simp)]
    simp only [pyLt]
    exact ok_calm
  | assign x v =>
    simp only [Form.Ok] at hf
    have hx0 : b.get x = .none := (Dict.has_false_iff _ _).1 (by simpa [dom] using hf.1)
    obtain ⟨u, hu, hp, hi⟩ := given_value hb hf.2
    simp only [Form.toValue]
    rw [C60_let mods n w b _ (H.core _ (by decide)) x hx0 u hu]; exact ok_calm
  | times a c x =>
    simp only [Form.Ok] at hf
    simp only [Form.Calm] at hc
    have hx0 : b.get x = .none := (Dict.has_false_iff _ _).1 (by simpa [dom] using hf.1)
    obtain ⟨u, ha⟩ := numGiven_value hN hc.1
    obtain ⟨v, hcc⟩ := numGiven_value hN hc.2
    simp only [Form.toValue]
    rw [C60_multiply mods n w b _ _ (H.core _ (by decide)) x hx0 u v ha hcc]; exact ok_calm

theorem forms_calm {ar : String → Option Nat} {P : Program} (H : Base mods w ar P)
    (hP : ∀ p vs, Derivable P p vs → ∀ v ∈ vs, hashable v = true)
    (hat : ∀ n p args b, ar p = some args.length → ArgsOk args → PlainB b → NoErr ((solverAt (modelOf mods) (n + 1)).solve (query1 p args) b w))
    (n : Nat) : FormsCalmAt mods w ar n := by
  induction n with
  | zero => intro q b N _ _ _ _ _ w' e h; exact absurd h (by simp [solverAt])
  | succ n ih =>
    intro q
    induction q with
    | nil => intro b N _ _ _ _ _; exact fun w' e h => by cases h
    | cons f fs ihq =>
      intro b N hq hc hb hh hN
      simp only [FormsOk] at hq
      simp only [FormsCalm] at hc
      have h1 := form_calm H hP hat ih hq.1 hc.1 hb hh hN
      cases fs with
      | nil => exact h1
      | cons f2 fs =>
        show NoErr ((do
          match ← solveSingle (solverAt (modelOf mods) n) (modelOf mods) f.toValue b with
          | .rows bs => collect (solveAtoms (solverAt (modelOf mods) n) (modelOf mods) (formValues (f2 :: fs))) bs []
          | .iter _ 0 => pure (.rows [])
          | .iter _ (_ + 1) => M.throw .attributeError : M W SolOut) w)
        refine bind_calm h1 fun w1 o h2 => ?_
        obtain ⟨rfl, bs, rfl, hx⟩ := form_exact H.toIn (forms_exact H.toIn n) hq.1 (called_any f _) hb h2
        refine collect_calm (fun b1 hb1 => ?_) []
        have hq1 : FormsOk ar (f2 :: fs) (dom b1) := by rw [hx.dom_eq hb1]; exact hq.2
        have hc1 : FormsCalm (f2 :: fs) (dom b1) (f.numbers N) := by rw [hx.dom_eq hb1]; exact hc.2
        obtain ⟨s1, s2, s3, s4⟩ := hx.sound b1 hb1
        refine ⟨ihq b1 _ hq1 hc1 s1 (hx.calm hb1 hh fun σ hB hS => sat_hash hP f hq.1 hc.1 hB hS) ?_, fun w3 o3 h3 => ?_⟩
        · intro x hxn
          have hNσ : ∀ y, N y → ∃ r, totalOf b1 y = .num r := by
            intro y hy
            obtain ⟨r, hr⟩ := hN y hy
            exact ⟨r, totalOf_agrees b1 y _ (s2 y _ hr)⟩
          have hsat := s4 _ (totalOf_plain s1) (totalOf_agrees b1)
          obtain ⟨r, hr⟩ := sat_numbers hNσ hsat x hxn
          have hdom : b1.has x = true := by
            refine (s3 x).2 ?_
            have hN' : ∀ y, N y → b.has y = true := fun y hy => by
              obtain ⟨r, hr⟩ := hN y hy
              exact (Dict.has_iff _ _).2 ⟨_, hr⟩
            cases f with
            | count y q => exact hxn.elim (fun h => .inl (hN' _ h)) fun h => .inr (by simp [Form.binds, h])
            | times a c y => exact hxn.elim (fun h => .inl (hN' _ h)) fun h => .inr (by simp [Form.binds, h])
            | assign y v => exact hxn.elim (fun h => .inl (hN' _ h)) fun h => .inr (by simp [Form.binds, h.1])
            | _ => exact .inl (hN' _ hxn)
          obtain ⟨v, hv⟩ := (Dict.has_iff _ _).1 hdom
          have : totalOf b1 x = v := totalOf_agrees b1 x v hv
          exact ⟨r, by rw [hv, ← this, hr]⟩
        · obtain ⟨e1, rs, e2, _⟩ := forms_exact H.toIn (n + 1) (f2 :: fs) b1 hq1 (formsCalled_any _ _) s1 w3 o3 h3
          exact ⟨e1, rs, e2⟩

end

/-! ## C87 -/

section
variable {ar : String → Option Nat} {tables : List (Dict (List (List Value)))} {rs : List HornRule}

/-- **C87** A query in which nothing can go wrong raises no exception, at whatever depth and over whatever rules: if it returns, it returns answers. -/
theorem C87_no_exception (K : KnowledgeBase W ar tables rs) (hrr : HeadsBound rs) (hcore : ∀ p ∈ coreNames, NotDefined K.others K.world p)
    (hl : NoListsIn tables rs) (n : Nat) {q : List Form} {b : Binding} {N : String → Prop} (hq : FormsOk ar q (fun x => b.has x = true))
    (hc : FormsCalm q (fun x => b.has x = true) N) (hb : PlainB b) (hh : ∀ x v, b.get x = some v → hashable v = true)
    (hN : ∀ x, N x → ∃ r, b.get x = some (.num r)) (w' : W) (e : Err) : K.askForms n q b ≠ .err w' e := by
  refine forms_calm (K.base hrr hcore) (fun p vs hd => derivable_hashable hl hrr hd) ?_ n q b N hq hc hb hh hN w' e
  intro n p args b hp hargs hb w' e h
  have hok : ProgramOk W ar (K.dbs ++ K.dbs') rs := K.split ▸ K.ok
  have hh := holds_inference K.lens K.world ar K.facts K.facts' rs hok K.inserted
  rw [← K.split] at hh
  have hq : QueryOk ar [(p, args)] := by
    intro a ha
    simp only [List.mem_singleton] at ha
    subst ha
    exact ⟨hp, hargs⟩
  have h' : (solverAt (modelOf (K.before ++ inferenceModule K.lens :: K.after)) (n + 1)).solve (toQuery [(p, args)]) b K.world = .err w' e := h
  rcases solve_good (holds_wellFormed K.ok hh) (n + 1) hq hb with h1 | ⟨bs, h1, _⟩ <;> rw [h1] at h' <;> cases h'

/-- **C87** (answers) If the calls of the rules go down (without recursion they do; for recursion see C92) such a query returns answers, at every depth from that of the query on. -/
theorem C87_answers (K : KnowledgeBase W ar tables rs) (hrr : HeadsBound rs) (hcore : ∀ p ∈ coreNames, NotDefined K.others K.world p)
    (hl : NoListsIn tables rs) {rank : String → Nat} (hrank : Descends (program tables rs) rank)
    {n : Nat} {q : List Form} {b : Binding} {N : String → Prop} (hq : FormsOk ar q (fun x => b.has x = true))
    (hc : FormsCalm q (fun x => b.has x = true) N) (hb : PlainB b) (hh : ∀ x v, b.get x = some v → hashable v = true)
    (hN : ∀ x, N x → ∃ r, b.get x = some (.num r)) (hn : formsDepth rank q ≤ n) : ∃ bs, K.askForms n q b = .ok K.world (.rows bs) := by
  rcases C71_returns K hrr hcore hrank hq hb hn with h | ⟨w', e, h⟩
  · exact h
  · exact absurd h (C87_no_exception K hrr hcore hl n hq hc hb hh hN w' e)

/-- **C87** (text) If nothing can go wrong in the queries that a grammar with quantifiers makes, then every text that can be derived is answered,
with the right answers. -/
theorem C87_text (K : KnowledgeBase W ar tables rs) (hrr : HeadsBound rs) (hcore : ∀ p ∈ coreNames, NotDefined K.others K.world p)
    (hlists : NoListsIn tables rs)
    {R : List String} {kinds : Str → Nat → Kind} {spec : GRule Attachment → List Value → RuleParts}
    {V : Str → Nat → Value → Prop} (hV : ∀ p k v d, V p k v → V p k (unify d v))
    (hcalm : ∀ k q, V cRoot k (.list (formValues q)) → FormsCalm q (fun _ => False) (fun _ => False))
    (E : Oracles) (rules : List (GRule Attachment)) (ok : RulesOk rules) (hspec : ∀ r, Usable rules r → SpecRule ar R kinds spec r)
    (hroot : ∀ r, Usable rules r → r.ante.predicate = cRoot → ∃ s, kinds cRoot r.ante.args.length = .phrase s ∧ RootSig s)
    (hret : ∀ r, Usable rules r → ReturnsRule V r) (wf : WellFounded (UnitStep rules))
    {rank : String → Nat} (hrank : Descends (program tables rs) rank)
    (text : Str) (hl : LowerOk E (normalizeSpace text))
    {fuel' depth' : Nat} (texts : List Str) {s : Session W} (hg : s.grammar = parseHistory E fuel' depth' (Grammar.new rules) texts)
    (hw : s.world = K.world) (hd : ∃ d, WholeDerivation E rules (normalizeSpace text) d) :
    ∃ N, ∀ fuel depth n, N ≤ fuel → N ≤ depth → N ≤ n → ∃ st t d bs,
      enter (solverAt K.modules n).inSession (sentencePipeline E fuel depth none (solverAt K.modules n)) (Request.new text, s) =
          .ok st (some (.executed (.rows bs))) ∧
        WholeDerivation E rules (normalizeSpace text) d ∧ TreesOf Eq [d] [t] ∧
        (∀ d', WholeDerivation E rules (normalizeSpace text) d' → ∃ t', TreesOf (fun r r' => r.equals r' = true) [d'] [t'] ∧
          (t' = t ∨ RankedBefore t t')) ∧
        st.2.world = K.world ∧ st.2.grammar = parseHistory E fuel' depth' (Grammar.new rules) (texts ++ [normalizeSpace text]) ∧
        (bs ≠ [] ↔ ∃ vals : List Value, vals.length = t.rule.ante.args.length ∧ (∀ v ∈ vals, Plain v) ∧
          SentenceTrue (program tables rs) spec t vals) ∧
        ∀ vals : List Value, vals.length = t.rule.ante.args.length → (∀ v ∈ vals, Plain v) →
          ((∃ b ∈ bs, Fits b ((List.range t.rule.ante.args.length).map fun j => genName (s.gen.number + j + 1)) vals) ↔
            SentenceTrue (program tables rs) spec t vals) := by
  obtain ⟨N, h⟩ := quantified_run K hrr hcore hV E rules ok hspec hroot hret wf hrank text hl texts hg hw hd
  refine ⟨N, fun fuel depth n h1 h2 h3 => ?_⟩
  obtain ⟨st, ⟨t, d, bs, h⟩ | ⟨e, q, k, w', _, hok, hv, h⟩⟩ := h fuel depth n h1 h2 h3
  · exact ⟨st, t, d, bs, h⟩
  · have hB : (fun x => Dict.has ([] : Binding) x = true) = fun _ => False := by
      funext x
      simp [Dict.has, Dict.get]
    exact absurd h (C87_no_exception K hrr hcore hlists n (N := fun _ => False) (by rw [hB]; exact hok) (by rw [hB]; exact hcalm k q hv)
      (fun x v hx => by simp at hx) (fun x v hx => by simp [Dict.get] at hx) (fun x hx => hx.elim) w' e)

end

/-! ## When nothing can go wrong in the values that rules make -/

mutual
/-- All atoms in the value, at any depth, have a predicate from the list. -/
def OnlyPreds (ps : List String) : Value → Prop
  | .tuple xs => (match xs with
    | .str p :: _ => p ∈ ps
    | _ => False) ∧ OnlyPredsAll ps xs
  | .list xs => OnlyPredsAll ps xs
  | .tmpl _ body => OnlyPredsAll ps body
  | _ => True
/-- Of all elements. -/
def OnlyPredsAll (ps : List String) : List Value → Prop
  | [] => True
  | x :: xs => OnlyPreds ps x ∧ OnlyPredsAll ps xs
end

/-- The predicates that can raise an exception. -/
def loudNames : List String := ["det_greater_than", "det_less_than", "equals", "greater_than", "less_than", "let", "multiply"]

mutual
theorem quiet_form {ps : List String} (hps : ∀ p ∈ loudNames, p ∉ ps) :
    ∀ (f : Form) (B N : String → Prop), OnlyPreds ps f.toValue → f.Calm B N
  | .atom .., _, _, _ => by simp only [Form.Calm]
  | .neg q, B, N, h => by
    simp only [Form.toValue, OnlyPreds, OnlyPredsAll, and_true] at h
    simp only [Form.Calm]; exact quiet_forms hps q B N h.2.2
  | .thereIsNo q, B, N, h => by
    simp only [Form.toValue, OnlyPreds, OnlyPredsAll, and_true] at h
    simp only [Form.Calm]; exact quiet_forms hps q B N h.2.2
  | .thereIs q, B, N, h => by
    simp only [Form.toValue, OnlyPreds, OnlyPredsAll, and_true] at h
    simp only [Form.Calm]; exact quiet_forms hps q B N h.2.2
  | .exactly q n, B, N, h => by
    simp only [Form.toValue, OnlyPreds, OnlyPredsAll, and_true] at h
    simp only [Form.Calm]; exact quiet_forms hps q B N h.2.2.1
  | .moreThan q n, B, N, h => by
    simp only [Form.toValue, OnlyPreds] at h
    exact absurd h.1 (hps _ (by decide))
  | .fewerThan q n, B, N, h => by
    simp only [Form.toValue, OnlyPreds] at h
    exact absurd h.1 (hps _ (by decide))
  | .all x r q, B, N, h => by
    simp only [Form.toValue, OnlyPreds, OnlyPredsAll, and_true] at h
    simp only [Form.Calm]; exact ⟨quiet_forms hps r B N h.2.2.2.1, quiet_forms hps q _ N h.2.2.2.2⟩
  | .count x q, B, N, h => by
    simp only [Form.toValue, OnlyPreds, OnlyPredsAll, and_true] at h
    simp only [Form.Calm]; exact quiet_forms hps q B N h.2.2.2
  | .either qs, B, N, h => by
    simp only [Form.toValue, OnlyPreds, OnlyPredsAll, and_true] at h
    simp only [Form.Calm]; exact quiet_alts hps qs B N h.2.2
  | .equals a c, B, N, h => by
    simp only [Form.toValue, OnlyPreds] at h
    exact absurd h.1 (hps _ (by decide))
  | .greater a c, B, N, h => by
    simp only [Form.toValue, OnlyPreds] at h
    exact absurd h.1 (hps _ (by decide))
  | .less a c, B, N, h => by
    simp only [Form.toValue, OnlyPreds] at h
    exact absurd h.1 (hps _ (by decide))
  | .assign x v, B, N, h => by
    simp only [Form.toValue, OnlyPreds] at h
    exact absurd h.1 (hps _ (by decide))
  | .times a c x, B, N, h => by
    simp only [Form.toValue, OnlyPreds] at h
    exact absurd h.1 (hps _ (by decide))
theorem quiet_forms {ps : List String} (hps : ∀ p ∈ loudNames, p ∉ ps) :
    ∀ (q : List Form) (B N : String → Prop), OnlyPredsAll ps (formValues q) → FormsCalm q B N
  | [], _, _, _ => by simp only [FormsCalm]
  | f :: fs, B, N, h => by
    simp only [formValues, OnlyPredsAll] at h
    simp only [FormsCalm]; exact ⟨quiet_form hps f B N h.1, quiet_forms hps fs _ _ h.2⟩
theorem quiet_alts {ps : List String} (hps : ∀ p ∈ loudNames, p ∉ ps) :
    ∀ (qs : List (List Form)) (B N : String → Prop), OnlyPredsAll ps (altValues qs) → AltsCalm qs B N
  | [], _, _, _ => by simp only [AltsCalm]
  | q :: qs, B, N, h => by
    simp only [altValues, OnlyPredsAll, OnlyPreds] at h
    simp only [AltsCalm]; exact ⟨quiet_forms hps q B N h.1, quiet_alts hps qs B N h.2⟩
end

theorem onlyPredsAll_iff {ps : List String} {xs : List Value} : OnlyPredsAll ps xs ↔ ∀ x ∈ xs, OnlyPreds ps x := by
  induction xs with
  | nil => simp [OnlyPredsAll]
  | cons x xs ih => simp [OnlyPredsAll, ih]

mutual
theorem onlyPreds_unify {ps : List String} (d : Dict String) : ∀ (v : Value), OnlyPreds ps v → OnlyPreds ps (unify d v)
  | .tuple [], h => by simp [OnlyPreds] at h
  | .tuple (x :: xs), h => by
    simp only [OnlyPreds] at h
    simp only [unify, unifyList, OnlyPreds, OnlyPredsAll]
    have h2 := onlyPreds_unifyList d (x :: xs) h.2
    simp only [unifyList, OnlyPredsAll] at h2
    refine ⟨?_, h2⟩
    cases x <;> simp_all [unify]
  | .list xs, h => by simp only [unify, OnlyPreds] at h ⊢; exact onlyPreds_unifyList d xs h
  | .tmpl args body, h => by simp only [unify, OnlyPreds] at h ⊢; exact onlyPreds_unifyList d body h
  | .var x, _ => by simp only [unify]; split <;> simp [OnlyPreds]
  | .rvar x, _ => by simp only [unify]; split <;> simp [OnlyPreds]
  | .none, _ => by simp [unify, OnlyPreds]
  | .num _, _ => by simp [unify, OnlyPreds]
  | .str _, _ => by simp [unify, OnlyPreds]
theorem onlyPreds_unifyList {ps : List String} (d : Dict String) : ∀ (vs : List Value), OnlyPredsAll ps vs → OnlyPredsAll ps (unifyList d vs)
  | [], _ => by simp [unifyList, OnlyPredsAll]
  | v :: vs, h => by
    simp only [OnlyPredsAll] at h
    simp only [unifyList, OnlyPredsAll]
    exact ⟨onlyPreds_unify d v h.1, onlyPreds_unifyList d vs h.2⟩
end

theorem onlyPredsAll_append {ps : List String} {xs ys : List Value} (hx : OnlyPredsAll ps xs) (hy : OnlyPredsAll ps ys) : OnlyPredsAll ps (xs ++ ys) := by
  simp only [onlyPredsAll_iff, List.mem_append] at *
  exact fun x h => h.elim (hx x) (hy x)

mutual
theorem onlyPreds_replaceIn {ps : List String} {t : String} (ht : t ∉ ps) {rep : List Value} (hr : OnlyPredsAll ps rep) :
    ∀ (vs : List Value), OnlyPredsAll ps vs → OnlyPredsAll ps (replaceIn (.str t) rep vs)
  | [], _ => by simp [replaceIn, OnlyPredsAll]
  | v :: vs, h => by
    simp only [OnlyPredsAll] at h
    simp only [replaceIn]
    split
    · exact onlyPredsAll_append hr (onlyPreds_replaceIn ht hr vs h.2)
    · simp only [OnlyPredsAll]
      exact ⟨onlyPreds_replaceOne ht hr v h.1, onlyPreds_replaceIn ht hr vs h.2⟩
theorem onlyPreds_replaceOne {ps : List String} {t : String} (ht : t ∉ ps) {rep : List Value} (hr : OnlyPredsAll ps rep) :
    ∀ (v : Value), OnlyPreds ps v → OnlyPreds ps (replaceOne (.str t) rep v)
  | .tuple [], h => by simp [OnlyPreds] at h
  | .tuple (x :: xs), h => by
    simp only [OnlyPreds, OnlyPredsAll] at h
    have h2 := onlyPreds_replaceIn ht hr xs h.2.2
    cases x with
    | str p =>
      have hne : p ≠ t := by rintro rfl; exact ht h.1
      simp only [replaceOne, replaceIn, Value.str.injEq, hne, if_false, OnlyPreds, OnlyPredsAll]
      exact ⟨h.1, trivial, h2⟩
    | _ => exact absurd h.1 (by simp)
  | .list xs, h => by simp only [replaceOne, OnlyPreds] at h ⊢; exact onlyPreds_replaceIn ht hr xs h
  | .tmpl args body, h => by simp only [replaceOne]; exact h
  | .var x, _ => by simp [replaceOne, OnlyPreds]
  | .rvar x, _ => by simp [replaceOne, OnlyPreds]
  | .none, _ => by simp [replaceOne, OnlyPreds]
  | .num _, _ => by simp [replaceOne, OnlyPreds]
  | .str _, _ => by simp [replaceOne, OnlyPreds]
end

/-- Rules whose functions only make atoms with these predicates out of values that have only such. -/
theorem returns_only {ps : List String} {V : Str → Nat → Value → Prop} {r : GRule Attachment} (h : ReturnsRule V r)
    (hf : ∀ f, semOf r.sem = some f → ∀ vs v, ArgsFor V r.cons vs → OnlyPredsAll ps vs → f vs = .ok v → OnlyPreds ps v) :
    ReturnsRule (fun p k v => V p k v ∧ OnlyPreds ps v) r := by
  obtain ⟨f, h1, h2⟩ := h
  have key : ∀ (cs : List Constituent) (vs : List Value), ArgsFor (fun p k v => V p k v ∧ OnlyPreds ps v) cs vs → ArgsFor V cs vs ∧ OnlyPredsAll ps vs := by
    intro cs
    induction cs with
    | nil => intro vs h; simp only [ArgsFor] at h ⊢; subst h; exact ⟨rfl, by simp [OnlyPredsAll]⟩
    | cons c cs ih =>
      intro vs h
      simp only [ArgsFor] at h ⊢
      cases hc : c.pos with
      | word => rw [hc] at h; exact ih vs h
      | regexp =>
        rw [hc] at h
        obtain ⟨w, us, rfl, h⟩ := h
        exact ⟨⟨w, us, rfl, (ih us h).1⟩, by simp only [OnlyPredsAll, OnlyPreds]; exact ⟨trivial, (ih us h).2⟩⟩
      | relation =>
        rw [hc] at h
        obtain ⟨v, us, rfl, hv, h⟩ := h
        exact ⟨⟨v, us, rfl, hv.1, (ih us h).1⟩, by simp only [OnlyPredsAll]; exact ⟨hv.2, (ih us h).2⟩⟩
  refine ⟨f, h1, fun vs hvs => ?_⟩
  obtain ⟨k1, k2⟩ := key _ _ hvs
  obtain ⟨v, hv, hV, ha⟩ := h2 vs k1
  exact ⟨v, hv, ⟨hV, hf f h1 vs v k1 k2 hv⟩, ha⟩

/-- **C87** (predicates) Nothing can go wrong in a query that only uses other predicates than the comparisons, `equals`, `let` and `multiply`. -/
theorem C87_predicates {ps : List String} (hps : ∀ p ∈ ["det_greater_than", "det_less_than", "equals", "greater_than", "less_than", "let", "multiply"], p ∉ ps)
    (q : List Form) (h : OnlyPreds ps (.list (formValues q))) (B N : String → Prop) : FormsCalm q B N :=
  quiet_forms hps q B N (by simpa only [OnlyPreds] using h)

/-! ## What can go wrong -/

/-- **C87** Limit: texts and numbers can not be ordered. -/
theorem C87_order_raises {ar : String → Option Nat} {tables : List (Dict (List (List Value)))} {rs : List HornRule} (K : KnowledgeBase W ar tables rs)
    (hcore : ∀ p ∈ coreNames, NotDefined K.others K.world p) (n : Nat) (b : Binding) (s : String) (r : Rat) :
    ∃ e, K.askForms (n + 1) [.greater (.str s) (.num r)] b = .err K.world e := by
  refine ⟨.typeError, ?_⟩
  have : K.askForms (n + 1) [.greater (.str s) (.num r)] b = (solverAt (modelOf K.others) (n + 1)).solve (query1 "greater_than" [.str s, .num r]) b K.world := rfl
  rw [this, run_greater (hcore _ (by decide)) rfl rfl (by simp) (by simp)]
  rfl

/-- **C87** Limit: `all` raises when the range has lists. -/
theorem C87_all_raises {ar : String → Option Nat} {tables : List (Dict (List (List Value)))} {rs : List HornRule} (K : KnowledgeBase W ar tables rs)
    (hcore : ∀ p ∈ coreNames, NotDefined K.others K.world p) (n : Nat) (q : List Form) (xs : List Value) :
    ∃ e, K.askForms (n + 2) [.all "X" [.assign "X" (.list xs)] q] [] = .err K.world e := by
  refine ⟨.typeError, ?_⟩
  have h : (solverAt (modelOf K.others) (n + 1)).solve (.list (formValues [.assign "X" (.list xs)])) [] K.world = .ok K.world (.rows [[("X", .list xs)]]) :=
    C60_let K.others n K.world [] _ (hcore _ (by decide)) "X" rfl (.list xs) rfl
  show (solverAt (modelOf K.others) (n + 2)).solve (query1 "all" [.var "X", .list (formValues [.assign "X" (.list xs)]), .list (formValues q)]) [] K.world = _
  rw [solve_core (hcore _ (by decide)) rfl (by decide)]
  simp only [coreAll]
  core_eval
  simp only [argValue, Option.getD_some, h, iterSol, M.pure_run]
  rfl

namespace Ex

/-- The hypotheses of **C87** are met by the question of C71. -/
theorem question_calm : FormsCalm question (fun _ => False) (fun _ => False) := by
  simp [question, FormsCalm, Form.Calm, AltsCalm, NumGiven, Form.numbers, Known.more, Given, Plain, HashArg, hashable, legal, Value.isVar, Form.binds, argVars]

theorem family_noLists : NoListsIn [family] ancestorRules := by
  refine ⟨?_, ?_⟩
  · intro db hdb p rows hrows row hrow v hv
    simp only [List.mem_singleton] at hdb
    subst hdb
    have : ∀ kv ∈ family, ∀ row ∈ kv.2, ∀ v ∈ row, hashable v = true := by decide +kernel
    exact this _ (Dict.mem_of_get hrows) row hrow v hv
  · have : ∀ r ∈ ancestorRules, ∀ v ∈ r.args, v.isVar = true := by decide +kernel
    intro r hr v hv h
    rw [this r hr v hv] at h
    cases h

/-- **C87** applies: whatever the depth, the question raises nothing, although the rules are recursive. -/
example (n : Nat) (w' : InfState) (e : Err) : familyKB.askForms n question [] ≠ .err w' e := by
  have hB : (fun x => Dict.has ([] : Binding) x = true) = fun _ => False := by
    funext x
    simp [Dict.has, Dict.get]
  exact C87_no_exception familyKB ancestor_heads family_core family_noLists n (N := fun _ => False) question_ok (by rw [hB]; exact question_calm)
    (fun x v hx => by simp at hx) (fun x v hx => by simp [Dict.get] at hx) (fun x hx => hx.elim) w' e

theorem kin_noLists : NoListsIn [kinTables] kinRules := by
  refine ⟨?_, ?_⟩
  · intro db hdb p rows hrows row hrow v hv
    simp only [List.mem_singleton] at hdb
    subst hdb
    have : ∀ kv ∈ kinTables, ∀ row ∈ kv.2, ∀ v ∈ row, hashable v = true := by decide +kernel
    exact this _ (Dict.mem_of_get hrows) row hrow v hv
  · have : ∀ r ∈ kinRules, ∀ v ∈ r.args, v.isVar = true := by decide +kernel
    intro r hr v hv h
    rw [this r hr v hv] at h
    cases h

/-- The predicates of the sentences. -/
def kinPreds : List String := ["have", "parent", "child", "all", "det_equals"]

theorem only_apply_one {np : Value} {vs body : List Value} (h : IsTemplate [sBody] np) (hn : OnlyPreds kinPreds np) (hv : OnlyPredsAll kinPreds vs)
    (ha : applyTemplate np [vs] = .ok body) : OnlyPredsAll kinPreds body := by
  obtain ⟨b, rfl, _⟩ := h
  obtain rfl : replaceIn (.str sBody) vs b = body := Except.ok.inj ha
  simp only [OnlyPreds] at hn
  exact onlyPreds_replaceIn (by decide) hv b hn

theorem only_apply_two {np : Value} {us vs body : List Value} (h : IsTemplate [sRange, sBody] np) (hn : OnlyPreds kinPreds np) (hu : OnlyPredsAll kinPreds us)
    (hv : OnlyPredsAll kinPreds vs) (ha : applyTemplate np [us, vs] = .ok body) : OnlyPredsAll kinPreds body := by
  obtain ⟨b, rfl, _⟩ := h
  obtain rfl : replaceIn (.str sBody) vs (replaceIn (.str sRange) us b) = body := Except.ok.inj ha
  simp only [OnlyPreds] at hn
  exact onlyPreds_replaceIn (by decide) hv _ (onlyPreds_replaceIn (by decide) hu b hn)

theorem makeNp_only {vs : List Value} {r : Value} (h : ∃ v us, vs = v :: us ∧ IsTemplate [sRange, sBody] v ∧ ∃ w us', us = w :: us' ∧ IsAtoms w ∧ us' = [])
    (hvs : OnlyPredsAll kinPreds vs) (hr : makeNp vs = .ok r) : OnlyPreds kinPreds r := by
  obtain ⟨v, _, rfl, hv, _, _, rfl, ⟨atoms, rfl, ha⟩, rfl⟩ := h
  simp only [OnlyPredsAll, OnlyPreds, and_true] at hvs
  cases hb : applyTemplate v [atoms, [.str sBody]] with
  | error e => simp [makeNp, hb, Except.map] at hr
  | ok body =>
    obtain rfl : Value.tmpl [slot sBody] body = r := by simpa [makeNp, hb, Except.map] using hr
    simp only [OnlyPreds]
    exact only_apply_two hv hvs.1 hvs.2 (by simp [OnlyPredsAll, OnlyPreds]) hb

theorem constant_only {v r : Value} {vs : List Value} (h : OnlyPreds kinPreds v) (hr : constant v vs = .ok r) : OnlyPreds kinPreds r := by
  cases vs with
  | nil => obtain rfl : v = r := Except.ok.inj hr; exact h
  | cons => simp [constant] at hr

theorem kin_only (r : GRule Attachment) (h : Usable kinGrammar r) : ReturnsRule (fun p k v => kinValues p k v ∧ OnlyPreds kinPreds v) r := by
  refine returns_only (kin_returns r h) ?_
  have h := kin_usable h
  simp only [kinGrammar, List.mem_cons, List.not_mem_nil, or_false] at h
  rcases h with rfl | rfl | rfl | rfl | rfl | rfl | rfl | rfl | rfl | rfl | rfl | rfl
  · intro f hf vs v hvs ho hv
    obtain rfl : applyOne = f := Option.some.inj hf
    obtain ⟨np, _, rfl, hnp, _, _, rfl, ⟨vp, rfl, _⟩, rfl⟩ : ∃ v us, vs = v :: us ∧ IsTemplate [sBody] v ∧ ∃ w us', us = w :: us' ∧ IsAtoms w ∧ us' = [] := hvs
    simp only [OnlyPredsAll, OnlyPreds, and_true] at ho
    cases hb : applyTemplate np [vp] with
    | error e => simp [applyOne, hb, Except.map] at hv
    | ok body =>
      obtain rfl : Value.list body = v := by simpa [applyOne, hb, Except.map] using hv
      simp only [OnlyPreds]; exact only_apply_one hnp ho.1 ho.2 hb
  · intro f hf vs v hvs ho hv
    obtain rfl : applyOther = f := Option.some.inj hf
    obtain ⟨_, _, rfl, ⟨tv, rfl, _⟩, np, _, rfl, hnp, rfl⟩ : ∃ v us, vs = v :: us ∧ IsAtoms v ∧ ∃ w us', us = w :: us' ∧ IsTemplate [sBody] w ∧ us' = [] := hvs
    simp only [OnlyPredsAll, OnlyPreds, and_true] at ho
    cases hb : applyTemplate np [tv] with
    | error e => simp [applyOther, hb, Except.map] at hv
    | ok body =>
      obtain rfl : Value.list body = v := by simpa [applyOther, hb, Except.map] using hv
      simp only [OnlyPreds]; exact only_apply_one hnp ho.2 ho.1 hb
  · intro f hf vs v hvs ho hv
    obtain rfl := Option.some.inj hf
    exact constant_only (by simp [OnlyPreds, OnlyPredsAll, kinPreds]) hv
  · intro f hf vs v hvs ho hv
    obtain rfl : makeNp = f := Option.some.inj hf
    exact makeNp_only hvs ho hv
  · intro f hf vs v hvs ho hv
    obtain rfl : makeNp = f := Option.some.inj hf
    exact makeNp_only hvs ho hv
  · intro f hf vs v hvs ho hv
    obtain rfl : same = f := Option.some.inj hf
    obtain ⟨_, _, rfl, ⟨p, rfl, hp⟩, rfl⟩ : ∃ v us, vs = v :: us ∧ IsAtoms v ∧ us = [] := hvs
    obtain rfl : Value.list p = v := Except.ok.inj hv
    simp only [OnlyPredsAll] at ho; exact ho.1
  · intro f hf vs v hvs ho hv
    obtain rfl := Option.some.inj hf
    exact constant_only (by simp [everyValue, OnlyPreds, OnlyPredsAll, kinPreds]) hv
  · intro f hf vs v hvs ho hv
    obtain rfl : makeNumeral = f := Option.some.inj hf
    obtain ⟨_, _, rfl, ⟨n, rfl⟩, rfl⟩ : ∃ v us, vs = v :: us ∧ (∃ r, v = .num r) ∧ us = [] := hvs
    obtain rfl := Except.ok.inj hv
    simp [OnlyPreds, OnlyPredsAll, kinPreds]
  · intro f hf vs v hvs ho hv
    obtain rfl := Option.some.inj hf
    exact constant_only (by simp [OnlyPreds]) hv
  · intro f hf vs v hvs ho hv
    obtain rfl := Option.some.inj hf
    exact constant_only (by simp [OnlyPreds]) hv
  · intro f hf vs v hvs ho hv
    obtain rfl := Option.some.inj hf
    exact constant_only (by simp [OnlyPreds, OnlyPredsAll, kinPreds]) hv
  · intro f hf vs v hvs ho hv
    obtain rfl := Option.some.inj hf
    exact constant_only (by simp [OnlyPreds, OnlyPredsAll, kinPreds]) hv

/-- **C87** applies to `every parent has two children`: it is answered. -/
example : ∃ N, ∀ fuel depth n, N ≤ fuel → N ≤ depth → N ≤ n → ∃ st bs,
    enter (solverAt kinKB.modules n).inSession (sentencePipeline whoOracles fuel depth none (solverAt kinKB.modules n))
      (Request.new kinText, ⟨Grammar.new kinGrammar, ⟨0, []⟩, kinKB.world⟩) = .ok st (some (.executed (.rows bs))) := by
  obtain ⟨_, d, hd, _⟩ := kin_true
  obtain ⟨N, h⟩ := C87_text kinKB kin_heads kin_core kin_noLists (V := fun p k v => kinValues p k v ∧ OnlyPreds kinPreds v)
    (fun p k v d h => ⟨kinValues_unify p k v d h.1, onlyPreds_unify d v h.2⟩)
    (fun k q h => C87_predicates (by decide) q h.2 _ _) whoOracles kinGrammar kin_rulesOk kin_spec kin_root kin_only kin_unit
    kin_rank kinText (by intro i; simp [whoOracles]) (fuel' := 20) (depth' := 20) [] (s := ⟨Grammar.new kinGrammar, ⟨0, []⟩, kinKB.world⟩) rfl rfl ⟨d, hd⟩
  refine ⟨N, fun fuel depth n h1 h2 h3 => ?_⟩
  obtain ⟨st, t, d, bs, h, _⟩ := h fuel depth n h1 h2 h3
  exact ⟨st, bs, h⟩

end Ex

end Verif
