import Verif.Quantified
import Verif.FirstOrderLemmas

/-!
# Queries that are built from parts mean what the parts say

The parts of a rule, with the meanings of consequents and slots filled in, form a query. The query is satisfied, in the sense of
`Verif.FirstOrder`, by the values of which the parts are true.
-/

namespace Verif

/-! ## Filling in -/

/-- The name of a variable is replaced. -/
def renArg (ρ : String → String) : Value → Value
  | .var x => .var (ρ x)
  | v => v

/-- The query that an atom or comparison becomes. -/
def Basic.form (ρ : String → String) : Basic → Form
  | .atom p args => .atom p (args.map (renArg ρ))
  | .equals a c => .equals (renArg ρ a) (renArg ρ c)
  | .greater a c => .greater (renArg ρ a) (renArg ρ c)
  | .less a c => .less (renArg ρ a) (renArg ρ c)
  | .assign x v => .assign (ρ x) (renArg ρ v)

/-- The same for `not`, `none` and `scoped`. -/
def Quant.form (q : List Form) : Quant → Form
  | .isNot => .neg q
  | .isNone => .thereIsNo q
  | .isScoped => .thereIs q

/-- The same for determiners. -/
def Numeral.form (q : List Form) (n : Value) : Numeral → Form
  | .exactly => .exactly q n
  | .moreThan => .moreThan q n
  | .fewerThan => .fewerThan q n

mutual
/-- The query that a part becomes: `G i` is the query that the `i`-th consequent becomes, given those for its slots, `H j` is the query in the
`j`-th slot of the rule, `ρ` gives the names of variables. -/
def plug (G : Nat → (Nat → List Form) → List Form) (H : Nat → List Form) (ρ : String → String) : Part → List Form
  | .basic b => [b.form ρ]
  | .quant k _ q => [k.form (plugAll G H ρ q)]
  | .number k _ q n => [k.form (plugAll G H ρ q) (renArg ρ n)]
  | .all x r q => [.all (ρ x) (plugAll G H ρ r) (plugAll G H ρ q)]
  | .hole j => H j
  | .app i es => G i (fun j => plugNth G H ρ es j)
/-- All parts. -/
def plugAll (G : Nat → (Nat → List Form) → List Form) (H : Nat → List Form) (ρ : String → String) : List Part → List Form
  | [] => []
  | p :: ps => plug G H ρ p ++ plugAll G H ρ ps
/-- The `j`-th filling. -/
def plugNth (G : Nat → (Nat → List Form) → List Form) (H : Nat → List Form) (ρ : String → String) : List (List Part) → Nat → List Form
  | [], _ => []
  | e :: _, 0 => plugAll G H ρ e
  | _ :: es, j + 1 => plugNth G H ρ es j
end

/-! ## Lists and assignments -/

theorem formBinds_append (q q' : List Form) : formBinds (q ++ q') = formBinds q ++ formBinds q' := by
  induction q with
  | nil => rfl
  | cons f q ih => simp [formBinds, ih]

theorem more_append (B : String → Prop) (xs ys : List String) : Known.more B (xs ++ ys) = Known.more (Known.more B xs) ys := by
  funext x
  simp [Known.more, or_assoc]

theorem more_nil (B : String → Prop) : Known.more B [] = B := by
  funext x
  simp [Known.more]

theorem satAll_append {P : Program} {σ : Assignment} : ∀ {q q' : List Form} {B : String → Prop},
    SatAll P (q ++ q') B σ ↔ SatAll P q B σ ∧ SatAll P q' (Known.more B (formBinds q)) σ
  | [], q', B => by simp [SatAll, formBinds, more_nil]
  | f :: q, q', B => by
    simp only [List.cons_append, SatAll, formBinds, more_append]
    rw [satAll_append, and_assoc]

theorem formsOk_append {ar : String → Option Nat} : ∀ {q q' : List Form} {B : String → Prop},
    FormsOk ar (q ++ q') B ↔ FormsOk ar q B ∧ FormsOk ar q' (Known.more B (formBinds q))
  | [], q', B => by simp [FormsOk, formBinds, more_nil]
  | f :: q, q', B => by
    simp only [List.cons_append, FormsOk, formBinds, more_append]
    rw [formsOk_append, and_assoc]

theorem satAll_one {P : Program} {σ : Assignment} {f : Form} {B : String → Prop} : SatAll P [f] B σ ↔ Sat P f B σ := by
  simp [SatAll]

theorem inst_renArg (σ : Assignment) (ρ : String → String) (v : Value) : inst σ (renArg ρ v) = inst (fun x => σ (ρ x)) v := by
  cases v <;> rfl

theorem argVars_ren (ρ : String → String) (args : List Value) : argVars (args.map (renArg ρ)) = (argVars args).map ρ := by
  induction args with
  | nil => rfl
  | cons a args ih => cases a <;> simp_all [argVars, renArg]

theorem setAll_self (σ : Assignment) (A : List String) : setAll σ A (A.map σ) = σ := by
  funext y
  simp only [setAll]
  split
  · rename_i h
    have hl : A.idxOf y < A.length := List.idxOf_lt_length_iff.2 h
    simp [hl]
  · rfl

theorem setAll_off {σ : Assignment} {A : List String} {vs : List Value} {y : String} (h : y ∉ A) : setAll σ A vs y = σ y := by
  simp [setAll, h]

theorem setAll_on {σ σ' : Assignment} {A : List String} {vs : List Value} {y : String} (h : y ∈ A) : setAll σ A vs y = setAll σ' A vs y := by
  simp [setAll, h]

theorem flagged_map (ρ : String → String) : ∀ (xs : List String) (fs : List Bool), flagged (xs.map ρ) fs = (flagged xs fs).map ρ
  | [], fs => by simp [flagged]
  | x :: xs, [] => by simp [flagged]
  | x :: xs, f :: fs => by
    have ih := flagged_map ρ xs fs
    simp only [flagged] at ih ⊢
    cases f <;> simp [ih]

theorem flagged_subset {xs : List String} {fs : List Bool} {x : String} (h : x ∈ flagged xs fs) : x ∈ xs := by
  simp only [flagged, List.mem_filterMap] at h
  obtain ⟨⟨a, f⟩, hm, he⟩ := h
  have := (List.of_mem_zip hm).1
  cases f
  · simp at he
  · simp at he
    rw [← he]
    exact this

theorem within_iff {xs ys : List String} : within xs ys = true ↔ ∀ x ∈ xs, x ∈ ys := by
  simp [within]

/-! ## Truth depends on the free variables and the slots that are used -/

theorem argVars_cons_var (x : String) (as : List Value) : argVars (.var x :: as) = x :: argVars as := rfl

theorem inst_congr {τ τ' : Assignment} {v : Value} (h : ∀ x ∈ argVars [v], τ x = τ' x) : inst τ v = inst τ' v := by
  cases v <;> first | rfl | exact h _ (by simp [argVars])

theorem argVars_append (as bs : List Value) : argVars (as ++ bs) = argVars as ++ argVars bs := by
  simp [argVars]

theorem argVars_mem {as : List Value} {a : Value} (ha : a ∈ as) {x : String} (hx : x ∈ argVars [a]) : x ∈ argVars as := by
  simp only [argVars, List.mem_filterMap, List.mem_singleton] at hx ⊢
  obtain ⟨b, rfl, hb⟩ := hx
  exact ⟨b, ha, hb⟩

theorem Basic.holds_congr {P : Program} {τ τ' : Assignment} {b : Basic} (h : ∀ x ∈ b.vars, τ x = τ' x) : b.holds P τ ↔ b.holds P τ' := by
  cases b with
  | atom p args =>
    have : args.map (inst τ) = args.map (inst τ') := List.map_congr_left fun a ha => inst_congr fun x hx => h x (argVars_mem ha hx)
    simp [Basic.holds, this]
  | equals a c =>
    have ha : inst τ a = inst τ' a := inst_congr fun x hx => h x (argVars_mem (by simp) hx)
    have hc : inst τ c = inst τ' c := inst_congr fun x hx => h x (argVars_mem (by simp) hx)
    simp [Basic.holds, ha, hc]
  | greater a c =>
    have ha : inst τ a = inst τ' a := inst_congr fun x hx => h x (argVars_mem (by simp) hx)
    have hc : inst τ c = inst τ' c := inst_congr fun x hx => h x (argVars_mem (by simp) hx)
    simp [Basic.holds, ha, hc]
  | less a c =>
    have ha : inst τ a = inst τ' a := inst_congr fun x hx => h x (argVars_mem (by simp) hx)
    have hc : inst τ c = inst τ' c := inst_congr fun x hx => h x (argVars_mem (by simp) hx)
    simp [Basic.holds, ha, hc]
  | assign x v =>
    have hx : τ x = τ' x := h x (by simp [Basic.vars])
    have hv : inst τ v = inst τ' v := inst_congr fun y hy => h y (by simp [Basic.vars, hy])
    simp [Basic.holds, hx, hv]

/-- The values of `τ` outside `xs`, those of `τ'` in `xs`. -/
def mix (xs : List String) (τ τ' : Assignment) : Assignment := fun y => if y ∈ xs then τ' y else τ y

theorem setVal_congr {τ τ' : Assignment} {x : String} {v : Value} {y : String} (h : y ≠ x → τ y = τ' y) : setVal τ x v y = setVal τ' x v y := by
  simp only [setVal]
  split
  · rfl
  · exact h ‹_›

theorem setAll_congr {τ τ' : Assignment} {xs : List String} {vs : List Value} {y : String} (h : y ∉ xs → τ y = τ' y) :
    setAll τ xs vs y = setAll τ' xs vs y := by
  simp only [setAll]
  split
  · rfl
  · exact h ‹_›

theorem CountOf.congr {S S' : Value → Prop} (h : ∀ v, S v ↔ S' v) (k : Nat) : CountOf S k ↔ CountOf S' k := by
  have : S = S' := funext fun v => propext (h v)
  rw [this]

/-- The settings differ in the slots only. -/
structure SameBut (S S' : Setting) : Prop where
  P : S.P = S'.P
  args : S.args = S'.args
  den : S.den = S'.den
  ante : S.ante = S'.ante

theorem plain_setVal {τ : Assignment} (hp : ∀ x, Plain (τ x)) {x : String} {v : Value} (hv : Plain v) (y : String) : Plain (setVal τ x v y) := by
  simp only [setVal]
  split
  · exact hv
  · exact hp y

/-- One half, for `quant`. -/
theorem varies_half {xs fv : List String} {τ τ' : Assignment} (h : ∀ x ∈ fv.filter (fun x => !xs.contains x), τ x = τ' x)
    {τ1 : Assignment} (h1 : Varies xs τ τ1) : ∃ τ2, Varies xs τ' τ2 ∧ ∀ x ∈ fv, τ1 x = τ2 x := by
  refine ⟨mix xs τ' τ1, ⟨?_, ?_⟩, ?_⟩
  · intro x hx
    simp only [mix, hx, if_true]
    exact h1.1 x hx
  · intro x hx
    simp [mix, hx]
  · intro x hx
    simp only [mix]
    split
    · rfl
    · rename_i hn
      rw [h1.2 x hn]
      exact h x (by simp [hx, hn])

mutual
theorem truth_congr {S S' : Setting} (hS : SameBut S S') : ∀ (p : Part) {τ τ' : Assignment}, (∀ x ∈ freeVars S.args S.ante p, τ x = τ' x) → (∀ k ∈ holesOf p, S.slots k = S'.slots k) → (truth S p τ ↔ truth S' p τ')
  | .basic b, τ, τ', hv, _ => by
    simp only [truth, ← hS.P]
    exact Basic.holds_congr hv
  | .quant k xs q, τ, τ', hv, hs => by
    have : (∃ t, Varies xs τ t ∧ truthAll S q t) ↔ ∃ t, Varies xs τ' t ∧ truthAll S' q t := by
      constructor
      · rintro ⟨t, h1, h2⟩
        obtain ⟨t2, h3, h4⟩ := varies_half (by simpa [freeVars] using hv) h1
        exact ⟨t2, h3, (truthAll_congr hS q h4 hs).1 h2⟩
      · rintro ⟨t, h1, h2⟩
        obtain ⟨t2, h3, h4⟩ := varies_half (fv := freeVarsAll S.args S.ante q) (τ := τ') (fun x hx => (hv x (by simpa [freeVars] using hx)).symm) h1
        exact ⟨t2, h3, (truthAll_congr hS q (fun x hx => (h4 x hx).symm) hs).2 h2⟩
    simp only [truth, this]
  | .number k x q n, τ, τ', hv, hs => by
    have hc : ∀ v, (Plain v ∧ truthAll S q (setVal τ x v)) ↔ (Plain v ∧ truthAll S' q (setVal τ' x v)) := by
      intro v
      refine and_congr_right fun _ => truthAll_congr hS q (fun y hy => setVal_congr fun hyx => hv y ?_) hs
      simp [freeVars, hy, hyx]
    have hn : inst τ n = inst τ' n := inst_congr fun y hy => hv y (by simp [freeVars, hy])
    simp only [truth, hn]
    exact exists_congr fun c => and_congr_left fun _ => CountOf.congr hc c
  | .all x r q, τ, τ', hv, hs => by
    have h1 : truthAll S r τ ↔ truthAll S' r τ' :=
      truthAll_congr hS r (fun y hy => hv y (by simp [freeVars, hy])) fun k hk => hs k (by simp [holesOf, hk])
    have hq : ∀ v, ((truthAll S r (setVal τ x v) → truthAll S q (setVal τ x v)) ↔
        (truthAll S' r (setVal τ' x v) → truthAll S' q (setVal τ' x v))) := by
      intro v
      exact imp_congr (truthAll_congr hS r (fun y hy => setVal_congr fun _ => hv y (by simp [freeVars, hy])) fun k hk => hs k (by simp [holesOf, hk]))
        (truthAll_congr hS q (fun y hy => setVal_congr fun _ => hv y (by simp [freeVars, hy])) fun k hk => hs k (by simp [holesOf, hk]))
    simp only [truth, h1]
    exact and_congr_right fun _ => forall_congr' fun v => imp_congr_right fun _ => hq v
  | .hole j, τ, τ', hv, hs => by
    have h1 : S.ante.map τ = S.ante.map τ' := List.map_congr_left fun x hx => hv x (by simpa [freeVars] using hx)
    simp only [truth, ← hS.ante, h1, hs j (by simp [holesOf])]
  | .app i es, τ, τ', hv, hs => by
    have h1 : (S.args i).map τ = (S.args i).map τ' := List.map_congr_left fun x hx => hv x (by simp [freeVars, hx])
    have h2 : (fun j vals => truthNth S es j (setAll τ (S.args i) vals)) = fun j vals => truthNth S' es j (setAll τ' (S.args i) vals) := by
      funext j vals
      exact propext (truthNth_congr hS es j (fun x hx => setAll_congr fun _ => hv x (by simp [freeVars, hx])) hs)
    simp only [truth, ← hS.args, ← hS.den, h1, h2]
theorem truthAll_congr {S S' : Setting} (hS : SameBut S S') : ∀ (ps : List Part) {τ τ' : Assignment}, (∀ x ∈ freeVarsAll S.args S.ante ps, τ x = τ' x) → (∀ k ∈ holesAll ps, S.slots k = S'.slots k) → (truthAll S ps τ ↔ truthAll S' ps τ')
  | [], _, _, _, _ => by simp [truthAll]
  | p :: ps, τ, τ', hv, hs => by
    simp only [truthAll]
    rw [truth_congr hS p (fun x hx => hv x (by simp [freeVarsAll, hx])) (fun k hk => hs k (by simp [holesAll, hk])),
      truthAll_congr hS ps (fun x hx => hv x (by simp [freeVarsAll, hx])) (fun k hk => hs k (by simp [holesAll, hk]))]
theorem truthNth_congr {S S' : Setting} (hS : SameBut S S') : ∀ (es : List (List Part)) (j : Nat) {τ τ' : Assignment},
    (∀ x ∈ freeVarsMany S.args S.ante es, τ x = τ' x) → (∀ k ∈ holesMany es, S.slots k = S'.slots k) →
    (truthNth S es j τ ↔ truthNth S' es j τ')
  | [], _, _, _, _, _ => by simp [truthNth]
  | e :: es, 0, τ, τ', hv, hs => by
    simp only [truthNth]
    exact truthAll_congr hS e (fun x hx => hv x (by simp [freeVarsMany, hx])) (fun k hk => hs k (by simp [holesMany, hk]))
  | e :: es, j + 1, τ, τ', hv, hs => by
    simp only [truthNth]
    exact truthNth_congr hS es j (fun x hx => hv x (by simp [freeVarsMany, hx])) (fun k hk => hs k (by simp [holesMany, hk]))
end

/-! ## Queries that express a meaning -/

/-- The query `q` expresses `mean` when the variables `B` are known: it is satisfied by values for which `mean` is true, and values for which
`mean` is true satisfy it, once suitable values are chosen for the variables `loc`, which do not occur elsewhere. It gives values to
variables of `sup` and `loc` only, and surely to those in `must`. -/
structure GoodQuery (ar : String → Option Nat) (P : Program) (q : List Form) (sup loc : String → Prop) (mean : Assignment → Prop)
    (must : List String) (tight : Prop) (B : String → Prop) : Prop where
  ok : FormsOk ar q B
  must : ∀ x ∈ must, B x ∨ x ∈ formBinds q
  binds : ∀ x ∈ formBinds q, sup x ∨ loc x
  tight : tight → ∀ x ∈ formBinds q, sup x
  sound : ∀ σ : Assignment, (∀ x, Plain (σ x)) → SatAll P q B σ → mean σ
  complete : ∀ σ : Assignment, (∀ x, Plain (σ x)) → mean σ → ∃ σ' : Assignment, (∀ x, Plain (σ' x)) ∧ (∀ x, ¬ loc x → σ' x = σ x) ∧
    ∀ σ'' : Assignment, (∀ x, Plain (σ'' x)) → (∀ x, sup x ∨ loc x → σ'' x = σ' x) → SatAll P q B σ''

/-- What fills a slot: the query, the variables that it shares with its surroundings, the variables that are its own, all its variables, and what
it says. -/
structure Filling where
  forms : List Form
  sup : String → Prop
  loc : String → Prop
  all : String → Prop
  mean : Assignment → Prop

/-- The filling is as the slot requires, when the variables `B` are known outside the phrase. -/
structure FillingOk (ar : String → Option Nat) (P : Program) (F : Filling) (s : SlotSig) (inc : List String) (B : String → Prop) : Prop where
  good : ∀ B1 : String → Prop, (∀ x, B x → B1 x) → (∀ x, F.all x → B1 x → B x ∨ x ∈ inc) → (∀ x ∈ flagged inc s.before, B1 x) →
    GoodQuery ar P F.forms F.sup F.loc F.mean (flagged inc s.after) (s.tight = true) B1
  congr : ∀ σ σ' : Assignment, (∀ x, F.sup x → σ x = σ' x) → (F.mean σ ↔ F.mean σ')
  supAll : ∀ x, F.sup x → F.all x
  locAll : ∀ x, F.loc x → F.all x
  locNew : ∀ x, F.loc x → ¬ B x ∧ x ∉ inc ∧ ¬ F.sup x
  closed : s.closed = true → ∀ x, F.sup x → B x ∨ x ∈ inc

/-- All fillings are, and they share only arguments and known variables. -/
structure FillingsOk (ar : String → Option Nat) (P : Program) (Fs : Nat → Filling) (slot : Nat → SlotSig) (inc : List String)
    (B : String → Prop) : Prop where
  each : ∀ j, FillingOk ar P (Fs j) (slot j) inc B
  share : ∀ j j', j ≠ j' → ∀ x, (Fs j).all x → (Fs j').sup x → B x ∨ x ∈ inc
  apart : ∀ j j', j ≠ j' → ∀ x, (Fs j).all x → ¬ (Fs j').loc x

/-- The arguments are known or not, as required. -/
def ModesOk (ms : List Mode) (inc : List String) (B : String → Prop) : Prop :=
  ∀ p ∈ ms.zip inc, (p.1 = .known → B p.2) ∧ (p.1 = .new → ¬ B p.2)

/-- Whatever fills its slots, the query that the phrase becomes expresses what the phrase means. -/
def GoodPhrase (ar : String → Option Nat) (P : Program) (s : Sig) (inc : List String) (own : String → Prop)
    (G : (Nat → List Form) → List Form) (D : (Nat → List Value → Prop) → List Value → Prop) : Prop :=
  ∀ (B : String → Prop) (Fs : Nat → Filling), ModesOk s.modes inc B → FillingsOk ar P Fs s.slot inc B →
    (∀ x, own x → ¬ B x ∧ x ∉ inc ∧ ∀ j, ¬ (Fs j).all x) →
    GoodQuery ar P (G fun j => (Fs j).forms) (fun x => x ∈ inc ∨ ∃ j, (Fs j).sup x) (fun x => own x ∨ ∃ j, (Fs j).loc x)
      (fun σ => D (fun j vals => (Fs j).mean (setAll σ inc vals)) (inc.map σ)) (flagged inc s.after) (s.tight = true) B

/-- A query that is satisfied exactly when the meaning is true. -/
theorem goodQuery_iff {ar : String → Option Nat} {P : Program} {f : Form} {sup loc : String → Prop} {mean : Assignment → Prop} {must : List String}
    {tight : Prop} {B : String → Prop} (ok : f.Ok ar B) (hm : ∀ x ∈ must, B x ∨ x ∈ f.binds) (hb : ∀ x ∈ f.binds, sup x)
    (congr : ∀ σ σ' : Assignment, (∀ x, sup x → σ x = σ' x) → (mean σ ↔ mean σ'))
    (h : ∀ σ : Assignment, (∀ x, Plain (σ x)) → (Sat P f B σ ↔ mean σ)) : GoodQuery ar P [f] sup loc mean must tight B where
  ok := ⟨ok, trivial⟩
  must := by simpa [formBinds] using hm
  binds := fun x hx => Or.inl (hb x (by simpa [formBinds] using hx))
  tight := fun _ x hx => hb x (by simpa [formBinds] using hx)
  sound := fun σ hp hs => (h σ hp).1 (satAll_one.1 hs)
  complete := fun σ hp hs => ⟨σ, hp, fun _ _ => rfl, fun σ'' hp' hag =>
    satAll_one.2 ((h σ'' hp').2 ((congr σ'' σ fun x hx => hag x (Or.inl hx)).2 hs))⟩

theorem goodQuery_nil {ar : String → Option Nat} {P : Program} {sup loc : String → Prop} {tight : Prop} {B : String → Prop} :
    GoodQuery ar P [] sup loc (fun _ => True) [] tight B where
  ok := trivial
  must := by simp
  binds := by simp [formBinds]
  tight := by simp [formBinds]
  sound := fun _ _ _ => trivial
  complete := fun σ hp _ => ⟨σ, hp, fun _ _ => rfl, fun _ _ _ => trivial⟩

/-- One query after the other. -/
theorem goodQuery_append {ar : String → Option Nat} {P : Program} {q q' : List Form} {sup sup' loc loc' : String → Prop}
    {mean mean' : Assignment → Prop} {must must' : List String} {tight tight' : Prop} {B : String → Prop}
    (h : GoodQuery ar P q sup loc mean must tight B) (h' : GoodQuery ar P q' sup' loc' mean' must' tight' (Known.more B (formBinds q)))
    (congr' : ∀ σ σ' : Assignment, (∀ x, sup' x → σ x = σ' x) → (mean' σ ↔ mean' σ'))
    (d1 : ∀ x, loc x → ¬ sup' x) (d2 : ∀ x, loc' x → ¬ sup x) (d3 : ∀ x, loc' x → ¬ loc x) :
    GoodQuery ar P (q ++ q') (fun x => sup x ∨ sup' x) (fun x => loc x ∨ loc' x) (fun σ => mean σ ∧ mean' σ) (must ++ must') (tight ∧ tight') B where
  ok := formsOk_append.2 ⟨h.ok, h'.ok⟩
  must := by
    intro x hx
    rw [formBinds_append]
    rcases List.mem_append.1 hx with hx | hx
    · rcases h.must x hx with h1 | h1
      · exact Or.inl h1
      · exact Or.inr (by simp [h1])
    · rcases h'.must x hx with (h1 | h1) | h1
      · exact Or.inl h1
      · exact Or.inr (by simp [h1])
      · exact Or.inr (by simp [h1])
  binds := by
    intro x hx
    rw [formBinds_append] at hx
    rcases List.mem_append.1 hx with hx | hx
    · rcases h.binds x hx with h1 | h1 <;> simp [h1]
    · rcases h'.binds x hx with h1 | h1 <;> simp [h1]
  tight := by
    intro ht x hx
    rw [formBinds_append] at hx
    rcases List.mem_append.1 hx with hx | hx
    · exact Or.inl (h.tight ht.1 x hx)
    · exact Or.inr (h'.tight ht.2 x hx)
  sound := fun σ hp hs => ⟨h.sound σ hp (satAll_append.1 hs).1, h'.sound σ hp (satAll_append.1 hs).2⟩
  complete := by
    rintro σ hp ⟨hm, hm'⟩
    obtain ⟨σ1, hp1, he1, hs1⟩ := h.complete σ hp hm
    obtain ⟨σ2, hp2, he2, hs2⟩ := h'.complete σ1 hp1 ((congr' σ1 σ fun x hx => he1 x fun hl => d1 x hl hx).2 hm')
    refine ⟨σ2, hp2, ?_, ?_⟩
    · intro x hx
      rw [he2 x (fun h => hx (Or.inr h)), he1 x (fun h => hx (Or.inl h))]
    · intro σ3 hp3 he3
      refine satAll_append.2 ⟨hs1 σ3 hp3 ?_, hs2 σ3 hp3 ?_⟩
      · intro x hx
        rw [he3 x (hx.imp Or.inl Or.inl), he2 x]
        intro hl
        exact hx.elim (d2 x hl) (d3 x hl)
      · intro x hx
        exact he3 x (hx.imp Or.inr Or.inr)

/-! ## The parts of a rule -/

/-- Where the parts of a rule are evaluated: what is known about the names of variables, the consequents, and the fillings of slots. -/
structure Place where
  Γ : Typing
  P : Program
  ρ : String → String
  V : String → Prop
  I : Nat → Prop
  G : Nat → (Nat → List Form) → List Form
  D : Nat → (Nat → List Value → Prop) → List Value → Prop
  own : Nat → String → Prop
  Fs : Nat → Filling
  B0 : String → Prop
  inj : ∀ y y', V y → V y' → ρ y = ρ y' → y = y'
  anteV : ∀ y ∈ Γ.ante, V y
  kids : ∀ i, I i → GoodPhrase Γ.ar P (Γ.sig i) ((Γ.args i).map ρ) (own i) (G i) (D i)
  ownVar : ∀ i, I i → ∀ x, own i x → ∀ y, V y → x ≠ ρ y
  ownNew : ∀ i, I i → ∀ x, own i x → ∀ j, ¬ (Fs j).all x
  ownApart : ∀ i i', I i → I i' → i ≠ i' → ∀ x, own i x → ¬ own i' x
  fill : FillingsOk Γ.ar P Fs Γ.slot (Γ.ante.map ρ) B0
  varNew : ∀ y, V y → y ∉ Γ.ante → ∀ j, ¬ (Fs j).all (ρ y)

namespace Place

variable (L : Place)

/-- The arguments of the antecedent. -/
def inc : List String := L.Γ.ante.map L.ρ

/-- The setting, when the variables have these values. -/
def setting (σ : Assignment) : Setting := ⟨L.P, L.Γ.args, L.D, L.Γ.ante, fun j vals => (L.Fs j).mean (setAll σ L.inc vals)⟩

/-- The values of the variables of the rule. -/
def vals (σ : Assignment) : Assignment := fun y => σ (L.ρ y)

/-- The variables that parts with these free variables and slots share with their surroundings. -/
def sup (fv : List String) (hs : List Nat) (x : String) : Prop := (∃ y ∈ fv, x = L.ρ y) ∨ ∃ k ∈ hs, (L.Fs k).sup x ∧ x ∉ L.inc

/-- Their own variables. -/
def loc (ks hs : List Nat) (x : String) : Prop := (∃ i ∈ ks, L.own i x) ∨ ∃ k ∈ hs, (L.Fs k).loc x

/-- What is known where the parts are evaluated. -/
structure At (K T : List String) (B : String → Prop) (every : List String) (hs ks : List Nat) : Prop where
  up : ∀ x, L.B0 x → B x
  known : ∀ y ∈ K, B (L.ρ y)
  new : ∀ y ∈ every, y ∉ T → ¬ B (L.ρ y)
  hole : ∀ k ∈ hs, ∀ x, (L.Fs k).all x → B x → L.B0 x ∨ x ∈ L.inc
  kid : ∀ i ∈ ks, ∀ x, L.own i x → ¬ B x
  vars : ∀ y ∈ every, L.V y
  used : ∀ i ∈ ks, L.I i
  holesOnce : hs.Nodup
  kidsOnce : ks.Nodup

/-- The query of parts. -/
abbrev query (ps : List Part) : List Form := plugAll L.G (fun j => (L.Fs j).forms) L.ρ ps

theorem sameBut (σ σ' : Assignment) : SameBut (L.setting σ) (L.setting σ') := ⟨rfl, rfl, rfl, rfl⟩

theorem slots_congr {σ σ' : Assignment} {k : Nat} (h : ∀ x, (L.Fs k).sup x → x ∉ L.inc → σ x = σ' x) :
    (L.setting σ).slots k = (L.setting σ').slots k := by
  funext vals
  exact propext ((L.fill.each k).congr _ _ fun x hx => setAll_congr fun hn => h x hx hn)

/-- What parts say depends on the variables they share with their surroundings. -/
theorem mean_congr (ps : List Part) {σ σ' : Assignment}
    (h : ∀ x, L.sup (freeVarsAll L.Γ.args L.Γ.ante ps) (holesAll ps) x → σ x = σ' x) :
    truthAll (L.setting σ) ps (L.vals σ) ↔ truthAll (L.setting σ') ps (L.vals σ') :=
  truthAll_congr (L.sameBut σ σ') ps (fun y hy => h _ (Or.inl ⟨y, hy, rfl⟩))
    fun k hk => L.slots_congr fun x hx hn => h x (Or.inr ⟨k, hk, hx, hn⟩)

theorem mean_congr1 (p : Part) {σ σ' : Assignment}
    (h : ∀ x, L.sup (freeVars L.Γ.args L.Γ.ante p) (holesOf p) x → σ x = σ' x) :
    truth (L.setting σ) p (L.vals σ) ↔ truth (L.setting σ') p (L.vals σ') :=
  truth_congr (L.sameBut σ σ') p (fun y hy => h _ (Or.inl ⟨y, hy, rfl⟩))
    fun k hk => L.slots_congr fun x hx hn => h x (Or.inr ⟨k, hk, hx, hn⟩)

variable {L}

theorem loc_new {K T : List String} {B : String → Prop} {every : List String} {hs ks : List Nat} (h : L.At K T B every hs ks) {x : String}
    (hx : L.loc ks hs x) : ¬ B x := by
  rcases hx with ⟨i, hi, h1⟩ | ⟨k, hk, h1⟩
  · exact h.kid i hi x h1
  · intro hb
    have h2 := (L.fill.each k).locNew x h1
    rcases h.hole k hk x ((L.fill.each k).locAll x h1) hb with h3 | h3
    · exact h2.1 h3
    · exact h2.2.1 h3

theorem loc_var {ks hs : List Nat} (hk : ∀ i ∈ ks, L.I i) {y : String} (hy : L.V y) : ¬ L.loc ks hs (L.ρ y) := by
  rintro (⟨i, hi, h1⟩ | ⟨k, hk, h1⟩)
  · exact L.ownVar i (hk i hi) _ h1 y hy rfl
  · have h2 := (L.fill.each k).locNew _ h1
    by_cases ha : y ∈ L.Γ.ante
    · exact h2.2.1 (List.mem_map_of_mem ha)
    · exact L.varNew y hy ha k ((L.fill.each k).locAll _ h1)

/-- A query inside a quantifier, first half: what satisfies it makes it true. -/
theorem inside_sound {xs K T : List String} {B : String → Prop} {q : List Part} {every : List String} {ks : List Nat}
    (hat : L.At K T B every (holesAll q) ks) {loc : String → Prop} {must : List String} {tight : Prop} {sup : String → Prop}
    (hg : GoodQuery L.Γ.ar L.P (L.query q) sup loc (fun σ => truthAll (L.setting σ) q (L.vals σ)) must tight B)
    (hfree : ∀ y ∈ freeVarsAll L.Γ.args L.Γ.ante q, y ∈ K ∨ y ∈ xs) (hcl : ∀ k ∈ holesAll q, (L.Γ.slot k).closed = true)
    {σ τ t : Assignment} (hag : AgreeOn B σ τ) (hsat : SatAll L.P (L.query q) B τ)
    (hK : ∀ y ∈ K, t y = σ (L.ρ y)) (hxs : ∀ y ∈ xs, t y = τ (L.ρ y)) : truthAll (L.setting σ) q t := by
  refine (truthAll_congr (L.sameBut τ σ) q ?_ ?_).1 (hg.sound τ hag.1 hsat)
  · intro y hy
    rcases hfree y hy with h | h
    · rw [hK y h]
      exact hag.2 _ (hat.known y h)
    · exact (hxs y h).symm
  · intro k hk
    refine L.slots_congr fun x hx hn => ?_
    rcases (L.fill.each k).closed (hcl k hk) x hx with h | h
    · exact hag.2 x (hat.up x h)
    · exact absurd h hn

open Classical in
/-- The values of `σ`, with those of `t` for variables of the rule. -/
noncomputable def putVars (L : Place) (xs : List String) (σ t : Assignment) : Assignment := fun z =>
  if h : ∃ y ∈ xs, z = L.ρ y then t h.choose else σ z

theorem putVars_on {xs : List String} (hV : ∀ y ∈ xs, L.V y) (σ t : Assignment) {y : String} (hy : y ∈ xs) : L.putVars xs σ t (L.ρ y) = t y := by
  have h : ∃ y' ∈ xs, L.ρ y = L.ρ y' := ⟨y, hy, rfl⟩
  simp only [putVars, dif_pos h]
  rw [L.inj _ _ (hV _ h.choose_spec.1) (hV y hy) h.choose_spec.2.symm]

theorem putVars_off {xs : List String} (σ t : Assignment) {z : String} (h : ∀ y ∈ xs, z ≠ L.ρ y) : L.putVars xs σ t z = σ z := by
  have : ¬ ∃ y ∈ xs, z = L.ρ y := fun ⟨y, hy, e⟩ => h y hy e
  simp only [putVars, dif_neg this]

theorem putVars_plain {xs : List String} {σ t : Assignment} (hp : ∀ x, Plain (σ x)) (ht : ∀ x, Plain (t x)) (z : String) :
    Plain (L.putVars xs σ t z) := by
  simp only [putVars]
  split
  · exact ht _
  · exact hp z

/-- The other half: when it is true, it can be satisfied. -/
theorem inside_complete {xs K T : List String} {B : String → Prop} {q : List Part} {every : List String} {ks : List Nat}
    (hat : L.At K T B every (holesAll q) ks) {must : List String} {tight : Prop} {sup : String → Prop}
    (hg : GoodQuery L.Γ.ar L.P (L.query q) sup (L.loc ks (holesAll q)) (fun σ => truthAll (L.setting σ) q (L.vals σ)) must tight B)
    (hfree : ∀ y ∈ freeVarsAll L.Γ.args L.Γ.ante q, y ∈ K ∨ y ∈ xs) (hcl : ∀ k ∈ holesAll q, (L.Γ.slot k).closed = true)
    (hV : ∀ y ∈ xs, L.V y) (hnew : ∀ y ∈ xs, ¬ B (L.ρ y))
    {σ t : Assignment} (hp : ∀ x, Plain (σ x)) (ht : ∀ y, Plain (t y)) (hK : ∀ y ∈ K, t y = σ (L.ρ y))
    (htrue : truthAll (L.setting σ) q t) : ∃ τ, AgreeOn B σ τ ∧ SatAll L.P (L.query q) B τ ∧ ∀ y ∈ xs, τ (L.ρ y) = t y := by
  have hp1 := putVars_plain (L := L) (xs := xs) hp ht
  have hB : ∀ x, B x → L.putVars xs σ t x = σ x := fun x hx => putVars_off σ t fun y hy e => hnew y hy (e ▸ hx)
  obtain ⟨τ, h1, h2, h3⟩ := hg.complete (L.putVars xs σ t) hp1 (by
    refine (truthAll_congr (L.sameBut _ σ) q ?_ ?_).2 htrue
    · intro y hy
      rcases hfree y hy with h | h
      · show L.putVars xs σ t (L.ρ y) = t y
        rw [hK y h]
        exact hB _ (hat.known y h)
      · exact putVars_on hV σ t h
    · intro k hk
      refine L.slots_congr fun x hx hn => ?_
      rcases (L.fill.each k).closed (hcl k hk) x hx with h | h
      · exact hB x (hat.up x h)
      · exact absurd h hn)
  refine ⟨τ, ⟨h1, fun x hx => ?_⟩, h3 τ h1 fun _ _ => rfl, fun y hy => ?_⟩
  · rw [h2 x fun hl => loc_new hat hl hx]
    exact hB x hx
  · rw [h2 _ (loc_var hat.used (hV y hy))]
    exact putVars_on hV σ t hy

end Place

end Verif
