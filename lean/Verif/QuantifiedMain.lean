import Verif.QuantifiedLemmas

/-!
# The parts of a rule, and rules

By induction on parts: the query that a list of parts becomes expresses what the parts say, provided that the parts pass the check `fitsAll`,
that the consequents are good phrases, and that the slots are filled as they require.
-/

namespace Verif

open Classical in
/-- Counting the ways to satisfy a query in which one variable is new is counting values. -/
theorem hasCount_values {V B : String → Prop} {x : String} {S : Assignment → Prop} {A : Value → Prop} {σ : Assignment} (hV : ∀ z, V z ↔ B z ∨ z = x)
    (hB : ∀ τ, S τ → ∀ z, B z → τ z = σ z) (h1 : ∀ τ, S τ → A (τ x)) (h2 : ∀ v, A v → ∃ τ, S τ ∧ τ x = v) (k : Nat) :
    HasCount V S k ↔ CountOf A k := by
  constructor
  · rintro ⟨L, hl, hs, hd, hc⟩
    refine ⟨L.map (· x), by simp [hl], ?_, ?_⟩
    · rw [List.Nodup, List.pairwise_map]
      refine List.Pairwise.imp_of_mem ?_ hd
      rintro τ τ' hm hm' ⟨z, hz, hne⟩ e
      rcases (hV z).1 hz with h | h
      · exact hne ((hB τ (hs τ hm) z h).trans (hB τ' (hs τ' hm') z h).symm)
      · exact hne (h ▸ e)
    · intro v
      simp only [List.mem_map]
      constructor
      · rintro ⟨τ, hm, rfl⟩
        exact h1 τ (hs τ hm)
      · intro hv
        obtain ⟨τ, hτ, rfl⟩ := h2 v hv
        obtain ⟨τ', hm, he⟩ := hc τ hτ
        exact ⟨τ', hm, (he x ((hV x).2 (Or.inr rfl))).symm⟩
  · rintro ⟨L, hl, hd, hm⟩
    let pick : Value → Assignment := fun v => if h : A v then (h2 v h).choose else fun _ => .none
    have hp : ∀ v, A v → S (pick v) ∧ pick v x = v := by
      intro v hv
      simp only [pick, dif_pos hv]
      exact (h2 v hv).choose_spec
    refine ⟨L.map pick, by simp [hl], ?_, ?_, ?_⟩
    · intro τ hτ
      obtain ⟨v, hv, rfl⟩ := List.mem_map.1 hτ
      exact (hp v ((hm v).1 hv)).1
    · rw [List.pairwise_map]
      refine List.Pairwise.imp_of_mem ?_ hd
      intro v v' hv hv' hne
      refine ⟨x, (hV x).2 (Or.inr rfl), ?_⟩
      rw [(hp v ((hm v).1 hv)).2, (hp v' ((hm v').1 hv')).2]
      exact hne
    · intro τ hτ
      have ha := h1 τ hτ
      refine ⟨pick (τ x), List.mem_map_of_mem ((hm _).2 ha), fun z hz => ?_⟩
      rcases (hV z).1 hz with h | h
      · rw [hB τ hτ z h, hB _ (hp _ ha).1 z h]
      · rw [h, (hp _ ha).2]

theorem plain_num (q : Rat) : Plain (.num q) := ⟨by simp, rfl, rfl⟩

theorem plain_str (s : String) : Plain (.str s) := ⟨by simp, rfl, rfl⟩

theorem simpleArg_ok {ρ : String → String} {a : Value} (h : simpleArg a = true) : (renArg ρ a).isVar = false → Plain (renArg ρ a) := by
  cases a with
  | num q => exact fun _ => plain_num q
  | str s => exact fun _ => plain_str s
  | var x => intro h; simp [renArg, Value.isVar] at h
  | _ => simp [simpleArg] at h

theorem givenArg_ok {ρ : String → String} {K : List String} {B : String → Prop} (hK : ∀ y ∈ K, B (ρ y)) {a : Value} (h : givenArg K a = true) :
    Given B (renArg ρ a) := by
  cases a with
  | num q => exact plain_num q
  | str s => exact plain_str s
  | var x => exact hK x (by simpa [givenArg] using h)
  | _ => simp [givenArg] at h

namespace Place

variable {L : Place}

/-- What is to be proved for a part. -/
abbrev GoodPart (L : Place) (p : Part) (B : String → Prop) : Prop :=
  GoodQuery L.Γ.ar L.P (plug L.G (fun j => (L.Fs j).forms) L.ρ p) (L.sup (freeVars L.Γ.args L.Γ.ante p) (holesOf p)) (L.loc (kidsOf p) (holesOf p))
    (fun σ => truth (L.setting σ) p (L.vals σ)) ((givesOf L.Γ p).map L.ρ) (tightPart L.Γ p = true) B

/-- What is to be proved for parts. -/
abbrev GoodParts (L : Place) (ps : List Part) (B : String → Prop) : Prop :=
  GoodQuery L.Γ.ar L.P (L.query ps) (L.sup (freeVarsAll L.Γ.args L.Γ.ante ps) (holesAll ps)) (L.loc (kidsAll ps) (holesAll ps))
    (fun σ => truthAll (L.setting σ) ps (L.vals σ)) ((givesAll L.Γ ps).map L.ρ) (tightAll L.Γ ps = true) B

theorem good_basic {b : Basic} {K T : List String} {B : String → Prop} (hat : L.At K T B b.vars [] []) (hf : b.fits L.Γ.ar K T = true) :
    L.GoodPart (.basic b) B := by
  refine goodQuery_iff (f := b.form L.ρ) ?_ ?_ ?_ (fun σ σ' h => L.mean_congr1 (.basic b) h) ?_
  · cases b with
    | atom p args =>
      simp only [Basic.fits, Bool.and_eq_true, decide_eq_true_eq, List.all_eq_true] at hf
      refine ⟨by simpa using hf.1, ?_⟩
      intro a ha
      obtain ⟨a', ha', rfl⟩ := List.mem_map.1 ha
      exact simpleArg_ok (hf.2 a' ha')
    | equals a c =>
      simp only [Basic.fits, Bool.and_eq_true] at hf
      intro d hd
      simp only [List.mem_cons, List.not_mem_nil, or_false] at hd
      rcases hd with rfl | rfl
      · exact simpleArg_ok hf.1
      · exact simpleArg_ok hf.2
    | greater a c =>
      simp only [Basic.fits, Bool.and_eq_true] at hf
      intro d hd
      simp only [List.mem_cons, List.not_mem_nil, or_false] at hd
      rcases hd with rfl | rfl
      · exact simpleArg_ok hf.1
      · exact simpleArg_ok hf.2
    | less a c =>
      simp only [Basic.fits, Bool.and_eq_true] at hf
      intro d hd
      simp only [List.mem_cons, List.not_mem_nil, or_false] at hd
      rcases hd with rfl | rfl
      · exact simpleArg_ok hf.1
      · exact simpleArg_ok hf.2
    | assign x v =>
      simp only [Basic.fits, Bool.and_eq_true, Bool.not_eq_true', List.contains_eq_mem, decide_eq_false_iff_not] at hf
      exact ⟨hat.new x (by simp [Basic.vars]) hf.1, givenArg_ok hat.known hf.2⟩
  · intro x hx
    right
    simp only [givesOf] at hx
    cases b with
    | atom p args => simpa [Basic.form, Form.binds, argVars_ren, Basic.gives] using hx
    | equals a c => 
      have : argVars [renArg L.ρ a, renArg L.ρ c] = (argVars [a, c]).map L.ρ := argVars_ren L.ρ [a, c]
      simpa [Basic.form, Form.binds, this, Basic.gives] using hx
    | greater a c => simp [Basic.gives] at hx
    | less a c => simp [Basic.gives] at hx
    | assign x v => simpa [Basic.form, Form.binds, Basic.gives] using hx
  · intro x hx
    left
    simp only [freeVars]
    cases b with
    | atom p args =>
      simp only [Basic.form, Form.binds, argVars_ren, List.mem_map] at hx
      obtain ⟨y, hy, rfl⟩ := hx
      exact ⟨y, hy, rfl⟩
    | equals a c => 
      have : argVars [renArg L.ρ a, renArg L.ρ c] = (argVars [a, c]).map L.ρ := argVars_ren L.ρ [a, c]
      simp only [Basic.form, Form.binds, this, List.mem_map] at hx
      obtain ⟨y, hy, rfl⟩ := hx
      exact ⟨y, hy, rfl⟩
    | greater a c => simp [Basic.form, Form.binds] at hx
    | less a c => simp [Basic.form, Form.binds] at hx
    | assign x v =>
      simp only [Basic.form, Form.binds, List.mem_singleton] at hx
      exact ⟨x, by simp [Basic.vars], hx⟩
  · intro σ _
    have hr : ∀ v, inst σ (renArg L.ρ v) = inst (L.vals σ) v := fun v => inst_renArg σ L.ρ v
    cases b with
    | atom p args =>
      have : (args.map (renArg L.ρ)).map (inst σ) = args.map (inst (L.vals σ)) := by
        rw [List.map_map]
        exact List.map_congr_left fun a _ => hr a
      simp only [Basic.form, Sat, truth, Basic.holds, this]
      rfl
    | equals a c => simp only [Basic.form, Sat, truth, Basic.holds, hr]
    | greater a c => simp only [Basic.form, Sat, truth, Basic.holds, hr]
    | less a c => simp only [Basic.form, Sat, truth, Basic.holds, hr]
    | assign x v =>
      simp only [Basic.form, Sat, truth, Basic.holds, hr]
      rfl

/-- What `not`, `none` and `scoped` require. -/
theorem good_quant {k : Quant} {xs : List String} {q : List Part} {K T : List String} {B : String → Prop}
    (hat : L.At K T B (xs ++ everyVarAll L.Γ.args L.Γ.ante q) (holesAll q) (kidsAll q)) (hg : L.GoodParts q B)
    (hnew : ∀ y ∈ xs, y ∉ T) (hfree : ∀ y ∈ freeVarsAll L.Γ.args L.Γ.ante q, y ∈ K ∨ y ∈ xs)
    (hcl : ∀ j ∈ holesAll q, (L.Γ.slot j).closed = true) : L.GoodPart (.quant k xs q) B := by
  have hVx : ∀ y ∈ xs, L.V y := fun y hy => hat.vars y (by simp [hy])
  have hBx : ∀ y ∈ xs, ¬ B (L.ρ y) := fun y hy => hat.new y (by simp [hy]) (hnew y hy)
  have key : ∀ σ : Assignment, (∀ x, Plain (σ x)) → ((∃ τ, AgreeOn B σ τ ∧ SatAll L.P (L.query q) B τ) ↔
      ∃ t, Varies xs (L.vals σ) t ∧ truthAll (L.setting σ) q t) := by
    intro σ hp
    constructor
    · rintro ⟨τ, ha, hs⟩
      refine ⟨mix xs (L.vals σ) (L.vals τ), ⟨?_, fun x hx => by simp [mix, hx]⟩, ?_⟩
      · intro y hy
        simp only [mix, hy, if_true]
        exact ha.1 _
      · refine inside_sound hat hg hfree hcl ha hs ?_ ?_
        · intro y hy
          have : y ∉ xs := fun h => hBx y h (hat.known y hy)
          simp [mix, this, vals]
        · intro y hy
          simp [mix, hy, vals]
    · rintro ⟨t, hv, ht⟩
      have hvp : ∀ y, Plain (t y) := fun y => by
        by_cases h : y ∈ xs
        · exact hv.1 y h
        · rw [hv.2 y h]
          exact hp _
      obtain ⟨τ, h1, h2, _⟩ := inside_complete hat hg hfree hcl hVx hBx hp hvp
        (fun y hy => hv.2 y fun h => hBx y h (hat.known y hy)) ht
      exact ⟨τ, h1, h2⟩
  refine goodQuery_iff (f := k.form (L.query q)) ?_ (by simp [givesOf]) ?_ (fun σ σ' h => L.mean_congr1 (.quant k xs q) h) ?_
  · cases k <;> exact hg.ok
  · cases k <;> simp [Quant.form, Form.binds]
  · intro σ hp
    have := key σ hp
    cases k <;> simp only [Quant.form, Sat, truth, Quant.holds, this]

/-- What determiners require. -/
theorem good_number {k : Numeral} {x : String} {q : List Part} {n : Value} {K T : List String} {B : String → Prop}
    (hat : L.At K T B (x :: everyVarAll L.Γ.args L.Γ.ante q) (holesAll q) (kidsAll q)) (hg : L.GoodParts q B)
    (hnew : x ∉ T) (hfree : ∀ y ∈ freeVarsAll L.Γ.args L.Γ.ante q, y ∈ K ∨ y ∈ [x])
    (hcl : ∀ j ∈ holesAll q, (L.Γ.slot j).closed = true) (hx : x ∈ givesAll L.Γ q) (ht : tightAll L.Γ q = true)
    (hn : givenArg K n = true) : L.GoodPart (.number k x q n) B := by
  have hVx : ∀ y ∈ [x], L.V y := fun y hy => hat.vars y (by simp at hy; simp [hy])
  have hBx : ∀ y ∈ [x], ¬ B (L.ρ y) := fun y hy => by
    simp at hy
    subst hy
    exact hat.new y (by simp) hnew
  have hV : ∀ z, Known.more B (formBinds (L.query q)) z ↔ B z ∨ z = L.ρ x := by
    intro z
    constructor
    · rintro (h | h)
      · exact Or.inl h
      · rcases hg.tight ht z h with ⟨y, hy, rfl⟩ | ⟨j, hj, hs, hni⟩
        · rcases hfree y hy with h1 | h1
          · exact Or.inl (hat.known y h1)
          · simp at h1
            exact Or.inr (by rw [h1])
        · rcases (L.fill.each j).closed (hcl j hj) z hs with h1 | h1
          · exact Or.inl (hat.up z h1)
          · exact absurd h1 hni
    · rintro (h | rfl)
      · exact Or.inl h
      · rcases hg.must (L.ρ x) (List.mem_map_of_mem hx) with h | h
        · exact absurd h (hBx x (by simp))
        · exact Or.inr h
  have key : ∀ (σ : Assignment), (∀ y, Plain (σ y)) → ∀ c : Nat,
      (HasCount (Known.more B (formBinds (L.query q))) (fun τ => AgreeOn B σ τ ∧ SatAll L.P (L.query q) B τ) c ↔
        CountOf (fun v => Plain v ∧ truthAll (L.setting σ) q (setVal (L.vals σ) x v)) c) := by
    intro σ hp c
    refine hasCount_values hV (σ := σ) (fun τ h z hz => h.1.2 z hz) ?_ ?_ c
    · rintro τ ⟨ha, hs⟩
      refine ⟨ha.1 _, inside_sound hat hg hfree hcl ha hs ?_ ?_⟩
      · intro y hy
        have : y ≠ x := fun h => hBx x (by simp) (h ▸ hat.known y hy)
        simp [setVal, this, vals]
      · intro y hy
        simp at hy
        simp [setVal, hy]
    · rintro v ⟨hv, htr⟩
      obtain ⟨τ, h1, h2, h3⟩ := inside_complete hat hg hfree hcl hVx hBx hp (plain_setVal (fun y => hp _) hv)
        (fun y hy => by
          have : y ≠ x := fun h => hBx x (by simp) (h ▸ hat.known y hy)
          simp [setVal, this]) htr
      refine ⟨τ, ⟨h1, h2⟩, ?_⟩
      rw [h3 x (by simp)]
      simp [setVal]
  refine goodQuery_iff (f := k.form (L.query q) (renArg L.ρ n)) ?_ (by simp [givesOf]) ?_ (fun σ σ' h => L.mean_congr1 (.number k x q n) h) ?_
  · cases k <;> exact ⟨hg.ok, givenArg_ok hat.known hn⟩
  · cases k <;> simp [Numeral.form, Form.binds]
  · intro σ hp
    have hr : inst σ (renArg L.ρ n) = inst (L.vals σ) n := inst_renArg σ L.ρ n
    cases k with
    | exactly => simp only [Numeral.form, Sat, truth, Numeral.holds, key σ hp, hr]
    | moreThan => simp only [Numeral.form, Sat, truth, Numeral.holds, key σ hp, hr, exists_and_left]
    | fewerThan => simp only [Numeral.form, Sat, truth, Numeral.holds, key σ hp, hr, exists_and_left]

/-- What `all` requires. -/
theorem good_all {x : String} {r q : List Part} {K T : List String} {B : String → Prop}
    (hr : L.At K T B (x :: everyVarAll L.Γ.args L.Γ.ante r) (holesAll r) (kidsAll r)) (hgr : L.GoodParts r B)
    (hq : L.At (x :: K) (x :: T) (Known.more B [L.ρ x]) (everyVarAll L.Γ.args L.Γ.ante q) (holesAll q) (kidsAll q))
    (hgq : L.GoodParts q (Known.more B [L.ρ x]))
    (hnew : x ∉ T) (hfr : ∀ y ∈ freeVarsAll L.Γ.args L.Γ.ante r, y ∈ K ∨ y ∈ [x]) (hfq : ∀ y ∈ freeVarsAll L.Γ.args L.Γ.ante q, y ∈ x :: K)
    (hclr : ∀ j ∈ holesAll r, (L.Γ.slot j).closed = true) (hclq : ∀ j ∈ holesAll q, (L.Γ.slot j).closed = true)
    (hx : x ∈ givesAll L.Γ r) : L.GoodPart (.all x r q) B := by
  have hVx : ∀ y ∈ [x], L.V y := fun y hy => hr.vars y (by simp at hy; simp [hy])
  have hB : ¬ B (L.ρ x) := hr.new x (by simp) hnew
  have hBx : ∀ y ∈ [x], ¬ B (L.ρ y) := fun y hy => by
    simp at hy
    subst hy
    exact hB
  have hKx : ∀ y ∈ K, y ≠ x := fun y hy h => hB (h ▸ hr.known y hy)
  have hfq' : ∀ y ∈ freeVarsAll L.Γ.args L.Γ.ante q, y ∈ x :: K ∨ y ∈ ([] : List String) := fun y hy => Or.inl (hfq y hy)
  have hslots : ∀ {σ τ : Assignment}, AgreeOn B σ τ → ∀ t, truthAll (L.setting τ) q t ↔ truthAll (L.setting σ) q t := by
    intro σ τ ha t
    refine truthAll_congr (L.sameBut τ σ) q (fun _ _ => rfl) fun j hj => ?_
    refine L.slots_congr fun z hz hn => ?_
    rcases (L.fill.each j).closed (hclq j hj) z hz with h1 | h1
    · exact ha.2 z (hr.up z h1)
    · exact absurd h1 hn
  refine goodQuery_iff (f := .all (L.ρ x) (L.query r) (L.query q)) ?_ ?_ ?_ (fun σ σ' h => L.mean_congr1 (.all x r q) h) ?_
  · refine ⟨hB, ?_, hgr.ok, hgq.ok⟩
    rcases hgr.must (L.ρ x) (List.mem_map_of_mem hx) with h | h
    · exact absurd h hB
    · exact h
  · intro z hz
    right
    simpa [givesOf, Form.binds] using hz
  · intro z hz
    simp only [Form.binds, List.mem_singleton] at hz
    exact Or.inl ⟨x, by simp [freeVars], hz⟩
  · intro σ hp
    simp only [Sat, truth]
    constructor
    · rintro ⟨⟨τ, ha, hs, he⟩, hall⟩
      refine ⟨inside_sound hr hgr hfr hclr ha hs (fun y _ => rfl) (fun y hy => ?_), ?_⟩
      · simp at hy
        subst hy
        exact he.symm
      · intro v hv htr
        obtain ⟨τ, h1, h2, h3⟩ := inside_complete hr hgr hfr hclr hVx hBx hp (plain_setVal (fun y => hp _) hv)
          (fun y hy => by simp [setVal, hKx y hy]) htr
        obtain ⟨τ', ha', hs'⟩ := hall τ h1 h2
        have h3' : τ (L.ρ x) = v := by rw [h3 x (by simp)]; simp [setVal]
        refine (hslots h1 _).1 (inside_sound hq hgq hfq' hclq ha' hs' ?_ (by simp))
        intro y hy
        rcases List.mem_cons.1 hy with rfl | hy
        · simp [setVal, h3']
        · simp only [setVal, hKx y hy, if_false, vals]
          exact (h1.2 _ (hr.known y hy)).symm
    · rintro ⟨htr, hall⟩
      constructor
      · obtain ⟨τ, h1, h2, h3⟩ := inside_complete hr hgr hfr hclr hVx hBx hp (fun y => hp (L.ρ y)) (fun y _ => rfl) htr
        exact ⟨τ, h1, h2, h3 x (by simp)⟩
      · intro τ ha hs
        have hset : ∀ y, y ∈ x :: K → setVal (L.vals σ) x (τ (L.ρ x)) y = τ (L.ρ y) := by
          intro y hy
          rcases List.mem_cons.1 hy with rfl | hy
          · simp [setVal]
          · simp only [setVal, hKx y hy, if_false, vals]
            exact (ha.2 _ (hr.known y hy)).symm
        have hpl := plain_setVal (τ := L.vals σ) (fun y => hp _) (x := x) (ha.1 (L.ρ x))
        have h1 := hall (τ (L.ρ x)) (ha.1 _) (inside_sound hr hgr hfr hclr ha hs
          (fun y hy => by simp [setVal, hKx y hy, vals]) (fun y hy => hset y (by simp at hy; simp [hy])))
        obtain ⟨τ', h2, h3, _⟩ := inside_complete hq hgq hfq' hclq (by simp) (by simp) ha.1 hpl hset ((hslots ha _).2 h1)
        exact ⟨τ', h2, h3⟩


/-! ## Slots and consequents -/

end Place

theorem GoodQuery.mono {ar : String → Option Nat} {P : Program} {q : List Form} {sup sup' loc loc' : String → Prop} {mean mean' : Assignment → Prop}
    {must must' : List String} {tight tight' : Prop} {B : String → Prop} (h : GoodQuery ar P q sup loc mean must tight B)
    (h1 : ∀ x, sup x → sup' x) (h2 : ∀ x, loc x → loc' x) (h3 : ∀ σ, mean σ ↔ mean' σ) (h4 : ∀ x ∈ must', x ∈ must) (h5 : tight' → tight) :
    GoodQuery ar P q sup' loc' mean' must' tight' B where
  ok := h.ok
  must := fun x hx => h.must x (h4 x hx)
  binds := fun x hx => (h.binds x hx).imp (h1 x) (h2 x)
  tight := fun ht x hx => h1 x (h.tight (h5 ht) x hx)
  sound := fun σ hp hs => (h3 σ).1 (h.sound σ hp hs)
  complete := by
    intro σ hp hm
    obtain ⟨σ1, a, b, c⟩ := h.complete σ hp ((h3 σ).2 hm)
    exact ⟨σ1, a, fun x hx => b x fun h => hx (h2 x h), fun σ2 hp2 he => c σ2 hp2 fun x hx => he x (hx.imp (h1 x) (h2 x))⟩

mutual
theorem free_every (args : Nat → List String) (ante : List String) : ∀ (p : Part) (x : String), x ∈ freeVars args ante p → x ∈ everyVar args ante p
  | .basic b, x, h => by simpa [freeVars, everyVar] using h
  | .quant k xs q, x, h => by
    simp only [freeVars, List.mem_filter] at h
    simp [everyVar, free_everyAll args ante q x h.1]
  | .number k y q n, x, h => by
    simp only [freeVars, List.mem_append, List.mem_filter] at h
    rcases h with h | h
    · simp [everyVar, free_everyAll args ante q x h.1]
    · simp [everyVar, h]
  | .all y r q, x, h => by
    simp only [freeVars, List.mem_cons, List.mem_append] at h
    rcases h with h | h | h
    · simp [everyVar, h]
    · simp [everyVar, free_everyAll args ante r x h]
    · simp [everyVar, free_everyAll args ante q x h]
  | .hole j, x, h => by simpa [freeVars, everyVar] using h
  | .app i es, x, h => by
    simp only [freeVars, List.mem_append] at h
    rcases h with h | h
    · simp [everyVar, h]
    · simp [everyVar, free_everyMany args ante es x h]
theorem free_everyAll (args : Nat → List String) (ante : List String) :
    ∀ (ps : List Part) (x : String), x ∈ freeVarsAll args ante ps → x ∈ everyVarAll args ante ps
  | [], x, h => by simp [freeVarsAll] at h
  | p :: ps, x, h => by
    simp only [freeVarsAll, List.mem_append] at h
    rcases h with h | h
    · simp [everyVarAll, free_every args ante p x h]
    · simp [everyVarAll, free_everyAll args ante ps x h]
theorem free_everyMany (args : Nat → List String) (ante : List String) :
    ∀ (es : List (List Part)) (x : String), x ∈ freeVarsMany args ante es → x ∈ everyVarMany args ante es
  | [], x, h => by simp [freeVarsMany] at h
  | e :: es, x, h => by
    simp only [freeVarsMany, List.mem_append] at h
    rcases h with h | h
    · simp [everyVarMany, free_everyAll args ante e x h]
    · simp [everyVarMany, free_everyMany args ante es x h]
end

theorem plugNth_eq (G : Nat → (Nat → List Form) → List Form) (H : Nat → List Form) (ρ : String → String) : ∀ (es : List (List Part)) (j : Nat),
    plugNth G H ρ es j = match es[j]? with
      | some e => plugAll G H ρ e
      | none => []
  | [], j => by simp [plugNth]
  | e :: es, 0 => by simp [plugNth]
  | e :: es, j + 1 => by
    simp only [plugNth, List.getElem?_cons_succ]
    exact plugNth_eq G H ρ es j

theorem truthNth_eq (S : Setting) (τ : Assignment) : ∀ (es : List (List Part)) (j : Nat),
    truthNth S es j τ ↔ match es[j]? with
      | some e => truthAll S e τ
      | none => True
  | [], j => by simp [truthNth]
  | e :: es, 0 => by simp [truthNth]
  | e :: es, j + 1 => by
    simp only [truthNth, List.getElem?_cons_succ]
    exact truthNth_eq S τ es j

theorem freeVarsMany_mem {args : Nat → List String} {ante : List String} {es : List (List Part)} {x : String} :
    x ∈ freeVarsMany args ante es ↔ ∃ e ∈ es, x ∈ freeVarsAll args ante e := by
  induction es with
  | nil => simp [freeVarsMany]
  | cons e es ih => simp [freeVarsMany, ih]

theorem everyVarMany_mem {args : Nat → List String} {ante : List String} {es : List (List Part)} {x : String} :
    x ∈ everyVarMany args ante es ↔ ∃ e ∈ es, x ∈ everyVarAll args ante e := by
  induction es with
  | nil => simp [everyVarMany]
  | cons e es ih => simp [everyVarMany, ih]

theorem holesMany_eq (es : List (List Part)) : holesMany es = es.flatMap holesAll := by
  induction es with
  | nil => rfl
  | cons e es ih => simp [holesMany, ih]

theorem kidsMany_eq (es : List (List Part)) : kidsMany es = es.flatMap kidsAll := by
  induction es with
  | nil => rfl
  | cons e es ih => simp [kidsMany, ih]

theorem nodup_part {α : Type} {f : List Part → List α} {es : List (List Part)} (h : (es.flatMap f).Nodup) {e : List Part} (he : e ∈ es) :
    (f e).Nodup := by
  induction es with
  | nil => simp at he
  | cons e' es ih =>
    rw [List.flatMap_cons, List.nodup_append] at h
    rcases List.mem_cons.1 he with rfl | he
    · exact h.1
    · exact ih h.2.1 he

theorem nodup_parts {α : Type} {f : List Part → List α} : ∀ {es : List (List Part)}, (es.flatMap f).Nodup → ∀ {j j' : Nat} {e e' : List Part},
    j ≠ j' → es[j]? = some e → es[j']? = some e' → ∀ x, x ∈ f e → x ∉ f e'
  | [], _, j, _, _, _, _, he, _, _, _ => by simp at he
  | e0 :: es, h, 0, 0, _, _, hne, _, _, _, _ => absurd rfl hne
  | e0 :: es, h, 0, j' + 1, e, e', _, he, he', x, hx => by
    rw [List.flatMap_cons, List.nodup_append] at h
    simp at he he'
    subst he
    intro hx'
    exact h.2.2 x hx x (List.mem_flatMap.2 ⟨e', List.mem_of_getElem? he', hx'⟩) rfl
  | e0 :: es, h, j + 1, 0, e, e', _, he, he', x, hx => by
    rw [List.flatMap_cons, List.nodup_append] at h
    simp at he he'
    subst he'
    intro hx'
    exact h.2.2 x hx' x (List.mem_flatMap.2 ⟨e, List.mem_of_getElem? he, hx⟩) rfl
  | e0 :: es, h, j + 1, j' + 1, e, e', hne, he, he', x, hx => by
    rw [List.flatMap_cons, List.nodup_append] at h
    simp at he he'
    exact nodup_parts h.2.1 (fun h => hne (by rw [h])) he he' x hx

theorem fitsMany_each {Γ : Typing} {i : Nat} {K T : List String} : ∀ {es : List (List Part)} {j0 : Nat}, fitsMany Γ i j0 es K T = true →
    ∀ {j : Nat} {e : List Part}, es[j]? = some e →
      fitsAll Γ e (K ++ flagged (Γ.args i) ((Γ.sig i).slot (j0 + j)).before) (T ++ Γ.args i) = true ∧
      (∀ x ∈ flagged (Γ.args i) ((Γ.sig i).slot (j0 + j)).after,
        x ∈ K ++ flagged (Γ.args i) ((Γ.sig i).slot (j0 + j)).before ++ givesAll Γ e) ∧
      (((Γ.sig i).slot (j0 + j)).closed = true → (∀ x ∈ freeVarsAll Γ.args Γ.ante e, x ∈ K ++ Γ.args i) ∧ ∀ k ∈ holesAll e, (Γ.slot k).closed = true) ∧
      (((Γ.sig i).slot (j0 + j)).tight = true → tightAll Γ e = true)
  | [], _, _, _, _, he => by simp at he
  | e0 :: es, j0, h, j, e, he => by
    simp only [fitsMany, Bool.and_eq_true, within_iff, Bool.or_eq_true, Bool.not_eq_true'] at h
    obtain ⟨⟨⟨⟨⟨⟨⟨h1, h2⟩, h3⟩, h4⟩, h5⟩, h6⟩, h7⟩, h8⟩ := h
    cases j with
    | zero =>
      simp at he
      subst he
      refine ⟨h1, h2, ?_, ?_⟩
      · intro hc
        rcases h3 with h3 | h3
        · rw [Nat.add_zero, h3] at hc
          exact absurd hc (by simp)
        · exact ⟨h3.1, by simpa using h3.2⟩
      · intro hc
        rcases h4 with h4 | h4
        · rw [Nat.add_zero, h4] at hc
          exact absurd hc (by simp)
        · exact h4
    | succ j =>
      simp at he
      have := fitsMany_each h8 he
      rw [show j0 + 1 + j = j0 + (j + 1) by omega] at this
      exact this

theorem fitsMany_share {Γ : Typing} {i : Nat} {K T : List String} : ∀ {es : List (List Part)} {j0 : Nat}, fitsMany Γ i j0 es K T = true →
    ∀ {j j' : Nat} {e e' : List Part}, j ≠ j' → es[j]? = some e → es[j']? = some e' →
      ∀ x ∈ everyVarAll Γ.args Γ.ante e, x ∈ freeVarsAll Γ.args Γ.ante e' → x ∈ K ++ Γ.args i
  | [], _, _, _, _, _, _, _, he, _ => by simp at he
  | e0 :: es, j0, h, j, j', e, e', hne, he, he' => by
    simp only [fitsMany, Bool.and_eq_true, within_iff, Bool.or_eq_true, Bool.not_eq_true', List.all_eq_true, List.contains_eq_mem,
      decide_eq_false_iff_not, decide_eq_true_eq] at h
    obtain ⟨⟨⟨⟨⟨⟨⟨h1, h2⟩, h3⟩, h4⟩, h5⟩, h6⟩, h7⟩, h8⟩ := h
    cases j with
    | zero =>
      cases j' with
      | zero => exact absurd rfl hne
      | succ j' =>
        simp at he he'
        subst he
        intro x hx hx'
        rcases h6 x hx with h | h
        · exact absurd (freeVarsMany_mem.2 ⟨e', List.mem_of_getElem? he', hx'⟩) h
        · exact h
    | succ j =>
      cases j' with
      | zero =>
        simp at he he'
        subst he'
        intro x hx hx'
        rcases h7 x (everyVarMany_mem.2 ⟨e, List.mem_of_getElem? he, hx⟩) with h | h
        · exact absurd hx' h
        · exact h
      | succ j' =>
        simp at he he'
        exact fitsMany_share h8 (fun h => hne (by rw [h])) he he'

theorem modesFit_ok {ρ : String → String} {K T : List String} {B : String → Prop} (hK : ∀ y ∈ K, B (ρ y)) : ∀ {ms : List Mode} {xs : List String},
    (∀ y ∈ xs, y ∉ T → ¬ B (ρ y)) → modesFit K T ms xs = true → ModesOk ms (xs.map ρ) B
  | [], _, _, _ => by simp [ModesOk]
  | m :: ms, [], _, h => by simp [modesFit] at h
  | m :: ms, x :: xs, hT, h => by
    simp only [modesFit, Bool.and_eq_true] at h
    intro p hp
    simp only [List.map_cons, List.zip_cons_cons, List.mem_cons] at hp
    rcases hp with rfl | hp
    · constructor
      · intro e
        simp only at e
        subst e
        exact hK x (by simpa using h.1)
      · intro e
        simp only at e
        subst e
        exact hT x (by simp) (by simpa using h.1)
    · exact modesFit_ok hK (fun y hy => hT y (by simp [hy])) h.2 p hp

namespace Place

variable {L : Place}

theorem inc_map (σ : Assignment) : L.inc.map σ = L.Γ.ante.map (L.vals σ) := by
  simp [inc, vals, Function.comp_def]

/-- A slot is replaced by what fills it. -/
theorem good_hole {j : Nat} {K T : List String} {B : String → Prop} (hat : L.At K T B L.Γ.ante [j] [])
    (hf : ∀ y ∈ flagged L.Γ.ante (L.Γ.slot j).before, y ∈ K) : L.GoodPart (.hole j) B := by
  have h := (L.fill.each j).good B hat.up (hat.hole j (by simp)) (by
    intro x hx
    rw [flagged_map] at hx
    obtain ⟨y, hy, rfl⟩ := List.mem_map.1 hx
    exact hat.known y (hf y hy))
  refine h.mono ?_ ?_ ?_ ?_ (fun h => h)
  · intro x hx
    by_cases hi : x ∈ L.inc
    · obtain ⟨y, hy, rfl⟩ := List.mem_map.1 hi
      exact Or.inl ⟨y, by simpa [freeVars] using hy, rfl⟩
    · exact Or.inr ⟨j, by simp [holesOf], hx, hi⟩
  · intro x hx
    exact Or.inr ⟨j, by simp [holesOf], hx⟩
  · intro σ
    simp only [truth, setting]
    rw [← inc_map, setAll_self]
  · intro x hx
    rw [flagged_map]
    exact hx

/-- All variables of a filling. -/
def every (L : Place) (e : List Part) (x : String) : Prop :=
  (∃ y ∈ everyVarAll L.Γ.args L.Γ.ante e, x = L.ρ y) ∨ (∃ k ∈ holesAll e, (L.Fs k).all x ∧ x ∉ L.inc) ∨ ∃ i ∈ kidsAll e, L.own i x

/-- The filling that parts are. -/
def filling (L : Place) (e : List Part) : Filling where
  forms := L.query e
  sup := L.sup (freeVarsAll L.Γ.args L.Γ.ante e) (holesAll e)
  loc := L.loc (kidsAll e) (holesAll e)
  all := L.every e
  mean := fun σ => truthAll (L.setting σ) e (L.vals σ)

/-- The fillings of the slots of a consequent. -/
def fillings (L : Place) (es : List (List Part)) (j : Nat) : Filling := match es[j]? with
  | some e => L.filling e
  | none => ⟨[], fun _ => False, fun _ => False, fun _ => False, fun _ => True⟩

theorem idxOf_map {ρ : String → String} {xs : List String} {y : String} (h : ∀ x ∈ xs, ρ x = ρ y → x = y) : (xs.map ρ).idxOf (ρ y) = xs.idxOf y := by
  induction xs with
  | nil => rfl
  | cons x xs ih =>
    simp only [List.map_cons, List.idxOf_cons]
    by_cases e : x = y
    · simp [e]
    · have : ρ x ≠ ρ y := fun e' => e (h x (by simp) e')
      rw [ih fun x hx => h x (by simp [hx])]
      have h1 : (x == y) = false := by simpa using e
      have h2 : (ρ x == ρ y) = false := by simpa using this
      rw [h1, h2]

theorem vals_setAll {xs : List String} (hxs : ∀ y ∈ xs, L.V y) {σ : Assignment} {vs : List Value} {y : String} (hy : L.V y) :
    L.vals (setAll σ (xs.map L.ρ) vs) y = setAll (L.vals σ) xs vs y := by
  have h1 : L.ρ y ∈ xs.map L.ρ ↔ y ∈ xs := by
    constructor
    · intro h
      obtain ⟨z, hz, e⟩ := List.mem_map.1 h
      exact L.inj z y (hxs z hz) hy e ▸ hz
    · exact fun h => List.mem_map_of_mem h
  simp only [vals, setAll, h1]
  rw [idxOf_map fun x hx e => L.inj x y (hxs x hx) hy e]

/-- A consequent, with its slots filled. -/
theorem good_app {i : Nat} {es : List (List Part)} {K T : List String} {B : String → Prop}
    (hat : L.At K T B (everyVar L.Γ.args L.Γ.ante (.app i es)) (holesMany es) (i :: kidsMany es))
    (hfit : fitsPart L.Γ (.app i es) K T = true)
    (ih : ∀ e ∈ es, ∀ (K T : List String) (B : String → Prop), L.At K T B (everyVarAll L.Γ.args L.Γ.ante e) (holesAll e) (kidsAll e) →
      fitsAll L.Γ e K T = true → L.GoodParts e B) : L.GoodPart (.app i es) B := by
  simp only [fitsPart, Bool.and_eq_true, decide_eq_true_eq] at hfit
  obtain ⟨⟨⟨hnd, hmodes⟩, hlen⟩, hmany⟩ := hfit
  have hI : L.I i := hat.used i (by simp)
  have hargs : ∀ y ∈ L.Γ.args i, L.V y := fun y hy => hat.vars y (by simp [everyVar, hy])
  have hev : ∀ e ∈ es, ∀ y ∈ everyVarAll L.Γ.args L.Γ.ante e, L.V y := fun e he y hy =>
    hat.vars y (by simp [everyVar, everyVarMany_mem.2 ⟨e, he, hy⟩])
  have hkI : ∀ e ∈ es, ∀ k ∈ kidsAll e, L.I k := fun e he k hk =>
    hat.used k (by rw [kidsMany_eq]; exact List.mem_cons_of_mem _ (List.mem_flatMap.2 ⟨e, he, hk⟩))
  have hho : ∀ e ∈ es, ∀ k ∈ holesAll e, k ∈ holesMany es := fun e he k hk => by
    rw [holesMany_eq]
    exact List.mem_flatMap.2 ⟨e, he, hk⟩
  have hatE : ∀ {e : List Part}, e ∈ es → L.At K T B (everyVarAll L.Γ.args L.Γ.ante e) (holesAll e) (kidsAll e) := by
    intro e he
    refine ⟨hat.up, hat.known, fun y hy => hat.new y (by simp [everyVar, everyVarMany_mem.2 ⟨e, he, hy⟩]), fun k hk => hat.hole k (hho e he k hk),
      fun k hk => hat.kid k ?_, hev e he, hkI e he, ?_, ?_⟩
    · rw [kidsMany_eq]
      exact List.mem_cons_of_mem _ (List.mem_flatMap.2 ⟨e, he, hk⟩)
    · have := hat.holesOnce
      rw [holesMany_eq] at this
      exact nodup_part this he
    · have := (List.nodup_cons.1 hat.kidsOnce).2
      rw [kidsMany_eq] at this
      exact nodup_part this he
  -- the fillings are as required
  have hfill : FillingsOk L.Γ.ar L.P (L.fillings es) (L.Γ.sig i).slot ((L.Γ.args i).map L.ρ) B := by
    refine ⟨?_, ?_, ?_⟩
    · intro j
      cases hj : es[j]? with
      | none =>
        have hs : (L.Γ.sig i).slot j = ⟨[], [], true, true⟩ := by
          have : (L.Γ.sig i).slots.length ≤ j := by
            rw [← hlen]
            exact List.getElem?_eq_none_iff.1 hj
          simp [Sig.slot, List.getD, List.getElem?_eq_none_iff.2 this]
        rw [hs]
        simp only [fillings, hj]
        refine ⟨?_, by simp, by simp, by simp, by simp, by simp⟩
        intro B1 _ _ _
        have : flagged ((L.Γ.args i).map L.ρ) [] = [] := by simp [flagged]
        rw [this]
        exact goodQuery_nil
      | some e =>
        have he := List.mem_of_getElem? hj
        have h := fitsMany_each hmany hj
        rw [Nat.zero_add] at h
        obtain ⟨hf, haft, hcl, hti⟩ := h
        have hF : L.fillings es j = L.filling e := by simp [fillings, hj]
        rw [hF]
        refine ⟨?_, fun σ σ' h => L.mean_congr e h, ?_, ?_, ?_, ?_⟩
        · intro B1 hup hall hbef
          have hat1 : L.At (K ++ flagged (L.Γ.args i) ((L.Γ.sig i).slot j).before) (T ++ L.Γ.args i) B1
              (everyVarAll L.Γ.args L.Γ.ante e) (holesAll e) (kidsAll e) := by
            refine ⟨fun x hx => hup x (hat.up x hx), ?_, ?_, ?_, ?_, hev e he, hkI e he, (hatE he).holesOnce, (hatE he).kidsOnce⟩
            · intro y hy
              rcases List.mem_append.1 hy with hy | hy
              · exact hup _ (hat.known y hy)
              · refine hbef _ ?_
                rw [flagged_map]
                exact List.mem_map_of_mem hy
            · intro y hy hyT hb
              simp only [List.mem_append, not_or] at hyT
              rcases hall _ (Or.inl ⟨y, hy, rfl⟩) hb with h1 | h1
              · exact (hatE he).new y hy hyT.1 h1
              · obtain ⟨z, hz, ez⟩ := List.mem_map.1 h1
                exact hyT.2 (L.inj z y (hargs z hz) (hev e he y hy) ez ▸ hz)
            · intro k hk x hx hb
              by_cases hi : x ∈ L.inc
              · exact Or.inr hi
              · rcases hall x (Or.inr (Or.inl ⟨k, hk, hx, hi⟩)) hb with h1 | h1
                · exact (hatE he).hole k hk x hx h1
                · obtain ⟨z, hz, ez⟩ := List.mem_map.1 h1
                  by_cases ha : z ∈ L.Γ.ante
                  · exact Or.inr (ez ▸ List.mem_map_of_mem ha)
                  · exact absurd (ez ▸ hx) (L.varNew z (hargs z hz) ha k)
            · intro k hk x hx hb
              rcases hall x (Or.inr (Or.inr ⟨k, hk, hx⟩)) hb with h1 | h1
              · exact (hatE he).kid k hk x hx h1
              · obtain ⟨z, hz, ez⟩ := List.mem_map.1 h1
                exact L.ownVar k (hkI e he k hk) x hx z (hargs z hz) ez.symm
          have hgood := ih e he _ _ B1 hat1 hf
          refine { hgood with must := ?_, tight := fun h => hgood.tight (hti h) }
          intro x hx
          rw [flagged_map] at hx
          obtain ⟨y, hy, rfl⟩ := List.mem_map.1 hx
          rcases List.mem_append.1 (haft y hy) with h1 | h1
          · exact Or.inl (hat1.known y h1)
          · exact hgood.must _ (List.mem_map_of_mem h1)
        · rintro x (⟨y, hy, rfl⟩ | ⟨k, hk, h1, h2⟩)
          · exact Or.inl ⟨y, free_everyAll _ _ e y hy, rfl⟩
          · exact Or.inr (Or.inl ⟨k, hk, (L.fill.each k).supAll x h1, h2⟩)
        · rintro x (⟨k, hk, h1⟩ | ⟨k, hk, h1⟩)
          · exact Or.inr (Or.inr ⟨k, hk, h1⟩)
          · exact Or.inr (Or.inl ⟨k, hk, (L.fill.each k).locAll x h1, ((L.fill.each k).locNew x h1).2.1⟩)
        · intro x hx
          refine ⟨loc_new (hatE he) hx, ?_, ?_⟩
          · intro h1
            obtain ⟨z, hz, rfl⟩ := List.mem_map.1 h1
            exact loc_var (hkI e he) (hargs z hz) hx
          · rintro (⟨y, hy, rfl⟩ | ⟨k, hk, h1, h2⟩)
            · exact loc_var (hkI e he) (hev e he y (free_everyAll _ _ e y hy)) hx
            · rcases hx with ⟨k', hk', h3⟩ | ⟨k', hk', h3⟩
              · exact L.ownNew k' (hkI e he k' hk') x h3 k ((L.fill.each k).supAll x h1)
              · by_cases ek : k = k'
                · subst ek
                  exact ((L.fill.each k).locNew x h3).2.2 h1
                · exact L.fill.apart k k' ek x ((L.fill.each k).supAll x h1) h3
        · intro hc x hx
          obtain ⟨c1, c2⟩ := hcl hc
          rcases hx with ⟨y, hy, rfl⟩ | ⟨k, hk, h1, h2⟩
          · rcases List.mem_append.1 (c1 y hy) with h | h
            · exact Or.inl (hat.known y h)
            · exact Or.inr (List.mem_map_of_mem h)
          · rcases (L.fill.each k).closed (c2 k hk) x h1 with h | h
            · exact Or.inl (hat.up x h)
            · exact absurd h h2
    · intro j j' hne x hx hx'
      cases hj : es[j]? with
      | none => simp [fillings, hj] at hx
      | some e =>
        cases hj' : es[j']? with
        | none => simp [fillings, hj'] at hx'
        | some e' =>
          have he := List.mem_of_getElem? hj
          have he' := List.mem_of_getElem? hj'
          simp only [fillings, hj] at hx
          simp only [fillings, hj'] at hx'
          rcases hx' with ⟨y', hy', rfl⟩ | ⟨k', hk', s1, s2⟩
          · have hV' := hev e' he' y' (free_everyAll _ _ e' y' hy')
            rcases hx with ⟨y, hy, e1⟩ | ⟨k, hk, h1, h2⟩ | ⟨k, hk, h1⟩
            · have := L.inj _ _ hV' (hev e he y hy) e1
              subst this
              rcases List.mem_append.1 (fitsMany_share hmany hne hj hj' _ hy hy') with h | h
              · exact Or.inl (hat.known _ h)
              · exact Or.inr (List.mem_map_of_mem h)
            · by_cases ha : y' ∈ L.Γ.ante
              · exact absurd (List.mem_map_of_mem ha) h2
              · exact absurd h1 (L.varNew y' hV' ha k)
            · exact absurd rfl (L.ownVar k (hkI e he k hk) _ h1 y' hV')
          · rcases hx with ⟨y, hy, rfl⟩ | ⟨k, hk, h1, h2⟩ | ⟨k, hk, h1⟩
            · by_cases ha : y ∈ L.Γ.ante
              · exact absurd (List.mem_map_of_mem ha) s2
              · exact absurd ((L.fill.each k').supAll _ s1) (L.varNew y (hev e he y hy) ha k')
            · have hkk : k ≠ k' := by
                rintro rfl
                have := hat.holesOnce
                rw [holesMany_eq] at this
                exact nodup_parts this hne hj hj' k hk hk'
              rcases L.fill.share k k' hkk x h1 s1 with h | h
              · exact Or.inl (hat.up x h)
              · exact absurd h h2
            · exact absurd ((L.fill.each k').supAll x s1) (L.ownNew k (hkI e he k hk) x h1 k')
    · intro j j' hne x hx hx'
      cases hj : es[j]? with
      | none => simp [fillings, hj] at hx
      | some e =>
        cases hj' : es[j']? with
        | none => simp [fillings, hj'] at hx'
        | some e' =>
          have he := List.mem_of_getElem? hj
          have he' := List.mem_of_getElem? hj'
          simp only [fillings, hj] at hx
          simp only [fillings, hj'] at hx'
          rcases hx with ⟨y, hy, rfl⟩ | ⟨k, hk, h1, h2⟩ | ⟨k, hk, h1⟩
          · exact loc_var (hkI e' he') (hev e he y hy) hx'
          · rcases hx' with ⟨k', hk', s1⟩ | ⟨k', hk', s1⟩
            · exact L.ownNew k' (hkI e' he' k' hk') x s1 k h1
            · have hkk : k ≠ k' := by
                rintro rfl
                have := hat.holesOnce
                rw [holesMany_eq] at this
                exact nodup_parts this hne hj hj' k hk hk'
              exact L.fill.apart k k' hkk x h1 s1
          · rcases hx' with ⟨k', hk', s1⟩ | ⟨k', hk', s1⟩
            · have hkk : k ≠ k' := by
                rintro rfl
                have := (List.nodup_cons.1 hat.kidsOnce).2
                rw [kidsMany_eq] at this
                exact nodup_parts this hne hj hj' k hk hk'
              exact L.ownApart k k' (hkI e he k hk) (hkI e' he' k' hk') hkk x h1 s1
            · exact L.ownNew k (hkI e he k hk) x h1 k' ((L.fill.each k').locAll x s1)
  -- the consequent is a good phrase
  have hmo : ModesOk (L.Γ.sig i).modes ((L.Γ.args i).map L.ρ) B :=
    modesFit_ok hat.known (fun y hy => hat.new y (by simp [everyVar, hy])) hmodes
  have hgood := L.kids i hI B (L.fillings es) hmo hfill (by
    intro x hx
    refine ⟨hat.kid i (by simp) x hx, ?_, ?_⟩
    · intro h
      obtain ⟨y, hy, rfl⟩ := List.mem_map.1 h
      exact L.ownVar i hI _ hx y (hargs y hy) rfl
    · intro j hj
      cases hj' : es[j]? with
      | none => simp [fillings, hj'] at hj
      | some e =>
        have he := List.mem_of_getElem? hj'
        simp only [fillings, hj'] at hj
        rcases hj with ⟨y, hy, rfl⟩ | ⟨k, hk, h1, h2⟩ | ⟨k, hk, h1⟩
        · exact L.ownVar i hI _ hx y (hev e he y hy) rfl
        · exact L.ownNew i hI x hx k h1
        · have hkk : i ≠ k := by
            rintro rfl
            refine (List.nodup_cons.1 hat.kidsOnce).1 ?_
            rw [kidsMany_eq]
            exact List.mem_flatMap.2 ⟨e, he, hk⟩
          exact L.ownApart i k hI (hkI e he k hk) hkk x hx h1)
  have hforms : (fun j => (L.fillings es j).forms) = fun j => plugNth L.G (fun j => (L.Fs j).forms) L.ρ es j := by
    funext j
    rw [plugNth_eq]
    cases hj : es[j]? with
    | none => simp [fillings, hj]
    | some e => simp [fillings, hj, filling]
  rw [hforms] at hgood
  refine hgood.mono ?_ ?_ ?_ ?_ (fun h => h)
  · rintro x (h | ⟨j, hj⟩)
    · obtain ⟨y, hy, rfl⟩ := List.mem_map.1 h
      exact Or.inl ⟨y, by simp [freeVars, hy], rfl⟩
    · cases hj' : es[j]? with
      | none => simp [fillings, hj'] at hj
      | some e =>
        have he := List.mem_of_getElem? hj'
        simp only [fillings, hj'] at hj
        rcases hj with ⟨y, hy, rfl⟩ | ⟨k, hk, h1⟩
        · exact Or.inl ⟨y, by simp [freeVars, freeVarsMany_mem.2 ⟨e, he, hy⟩], rfl⟩
        · exact Or.inr ⟨k, hho e he k hk, h1⟩
  · rintro x (h | ⟨j, hj⟩)
    · exact Or.inl ⟨i, by simp [kidsOf], h⟩
    · cases hj' : es[j]? with
      | none => simp [fillings, hj'] at hj
      | some e =>
        have he := List.mem_of_getElem? hj'
        simp only [fillings, hj'] at hj
        rcases hj with ⟨k, hk, h1⟩ | ⟨k, hk, h1⟩
        · refine Or.inl ⟨k, ?_, h1⟩
          rw [kidsOf, kidsMany_eq]
          exact List.mem_cons_of_mem _ (List.mem_flatMap.2 ⟨e, he, hk⟩)
        · exact Or.inr ⟨k, hho e he k hk, h1⟩
  · intro σ
    simp only [truth]
    have h1 : ((L.Γ.args i).map L.ρ).map σ = (L.Γ.args i).map (L.vals σ) := by
      simp [vals, Function.comp_def]
    have h2 : (fun j vs => (L.fillings es j).mean (setAll σ ((L.Γ.args i).map L.ρ) vs)) =
        fun j vs => truthNth (L.setting σ) es j (setAll (L.vals σ) (L.Γ.args i) vs) := by
      funext j vs
      apply propext
      rw [truthNth_eq]
      cases hj : es[j]? with
      | none => simp [fillings, hj]
      | some e =>
        have he := List.mem_of_getElem? hj
        simp only [fillings, hj]
        refine truthAll_congr (L.sameBut _ _) e (fun y hy => vals_setAll hargs (hev e he y (free_everyAll _ _ e y hy))) ?_
        intro k hk
        refine L.slots_congr fun x hx hn => ?_
        refine setAll_off fun h => ?_
        obtain ⟨z, hz, rfl⟩ := List.mem_map.1 h
        by_cases ha : z ∈ L.Γ.ante
        · exact hn (List.mem_map_of_mem ha)
        · exact L.varNew z (hargs z hz) ha k ((L.fill.each k).supAll _ hx)
    rw [h1, h2]
    rfl
  · intro x hx
    rw [flagged_map]
    exact hx

/-! ## The induction -/

/-- Where the next parts are evaluated. -/
theorem At.next {p : Part} {ps : List Part} {K T : List String} {B : String → Prop}
    (hat : L.At K T B (everyVarAll L.Γ.args L.Γ.ante (p :: ps)) (holesAll (p :: ps)) (kidsAll (p :: ps))) (hg : L.GoodPart p B) :
    L.At (K ++ givesOf L.Γ p) (T ++ freeVars L.Γ.args L.Γ.ante p) (Known.more B (formBinds (plug L.G (fun j => (L.Fs j).forms) L.ρ p)))
      (everyVarAll L.Γ.args L.Γ.ante ps) (holesAll ps) (kidsAll ps) := by
  have hnh := hat.holesOnce
  have hnk := hat.kidsOnce
  simp only [holesAll, kidsAll, List.nodup_append] at hnh hnk
  have hV : ∀ y ∈ everyVar L.Γ.args L.Γ.ante p, L.V y := fun y hy => hat.vars y (by simp [everyVarAll, hy])
  have hV' : ∀ y ∈ everyVarAll L.Γ.args L.Γ.ante ps, L.V y := fun y hy => hat.vars y (by simp [everyVarAll, hy])
  have hkp : ∀ i ∈ kidsOf p, L.I i := fun i hi => hat.used i (by simp [kidsAll, hi])
  have hks : ∀ i ∈ kidsAll ps, L.I i := fun i hi => hat.used i (by simp [kidsAll, hi])
  refine ⟨fun x hx => Or.inl (hat.up x hx), ?_, ?_, ?_, ?_, hV', hks, hnh.2.1, hnk.2.1⟩
  · intro y hy
    rcases List.mem_append.1 hy with hy | hy
    · exact Or.inl (hat.known y hy)
    · exact hg.must _ (List.mem_map_of_mem hy)
  · intro y hy hyT
    simp only [List.mem_append, not_or] at hyT
    rintro (hb | hb)
    · exact hat.new y (by simp [everyVarAll, hy]) hyT.1 hb
    · rcases hg.binds _ hb with (⟨z, hz, e⟩ | ⟨k, hk, h1, h2⟩) | h
      · exact hyT.2 (L.inj y z (hV' y hy) (hV z (free_every _ _ p z hz)) e ▸ hz)
      · by_cases ha : y ∈ L.Γ.ante
        · exact h2 (List.mem_map_of_mem ha)
        · exact L.varNew y (hV' y hy) ha k ((L.fill.each k).supAll _ h1)
      · exact loc_var hkp (hV' y hy) h
  · intro k hk x hx
    rintro (hb | hb)
    · exact hat.hole k (by simp [holesAll, hk]) x hx hb
    · rcases hg.binds _ hb with (⟨z, hz, rfl⟩ | ⟨k', hk', h1, h2⟩) | h
      · by_cases ha : z ∈ L.Γ.ante
        · exact Or.inr (List.mem_map_of_mem ha)
        · exact absurd hx (L.varNew z (hV z (free_every _ _ p z hz)) ha k)
      · exact L.fill.share k k' (fun e => hnh.2.2 k' hk' k hk e.symm) x hx h1
      · rcases h with ⟨i, hi, h1⟩ | ⟨k', hk', h1⟩
        · exact absurd hx (L.ownNew i (hkp i hi) x h1 k)
        · exact absurd h1 (L.fill.apart k k' (fun e => hnh.2.2 k' hk' k hk e.symm) x hx)
  · intro i hi x hx
    rintro (hb | hb)
    · exact hat.kid i (by simp [kidsAll, hi]) x hx hb
    · rcases hg.binds _ hb with (⟨z, hz, rfl⟩ | ⟨k', hk', h1, h2⟩) | h
      · exact L.ownVar i (hks i hi) _ hx z (hV z (free_every _ _ p z hz)) rfl
      · exact L.ownNew i (hks i hi) x hx k' ((L.fill.each k').supAll x h1)
      · rcases h with ⟨i', hi', h1⟩ | ⟨k', hk', h1⟩
        · exact L.ownApart i i' (hks i hi) (hkp i' hi') (fun e => hnk.2.2 i' hi' i hi e.symm) x hx h1
        · exact L.ownNew i (hks i hi) x hx k' ((L.fill.each k').locAll x h1)

theorem At.first {p : Part} {ps : List Part} {K T : List String} {B : String → Prop}
    (hat : L.At K T B (everyVarAll L.Γ.args L.Γ.ante (p :: ps)) (holesAll (p :: ps)) (kidsAll (p :: ps))) :
    L.At K T B (everyVar L.Γ.args L.Γ.ante p) (holesOf p) (kidsOf p) := by
  have hnh := hat.holesOnce
  have hnk := hat.kidsOnce
  simp only [holesAll, kidsAll, List.nodup_append] at hnh hnk
  exact ⟨hat.up, hat.known, fun y hy => hat.new y (by simp [everyVarAll, hy]), fun k hk => hat.hole k (by simp [holesAll, hk]),
    fun i hi => hat.kid i (by simp [kidsAll, hi]), fun y hy => hat.vars y (by simp [everyVarAll, hy]),
    fun i hi => hat.used i (by simp [kidsAll, hi]), hnh.1, hnk.1⟩

/-- One part after the other. -/
theorem good_cons {p : Part} {ps : List Part} {K T : List String} {B : String → Prop}
    (hat : L.At K T B (everyVarAll L.Γ.args L.Γ.ante (p :: ps)) (holesAll (p :: ps)) (kidsAll (p :: ps))) (hg : L.GoodPart p B)
    (hgs : L.GoodParts ps (Known.more B (formBinds (plug L.G (fun j => (L.Fs j).forms) L.ρ p)))) : L.GoodParts (p :: ps) B := by
  have hnh := hat.holesOnce
  have hnk := hat.kidsOnce
  simp only [holesAll, kidsAll, List.nodup_append] at hnh hnk
  have hV : ∀ y ∈ everyVar L.Γ.args L.Γ.ante p, L.V y := fun y hy => hat.vars y (by simp [everyVarAll, hy])
  have hV' : ∀ y ∈ everyVarAll L.Γ.args L.Γ.ante ps, L.V y := fun y hy => hat.vars y (by simp [everyVarAll, hy])
  have hkp : ∀ i ∈ kidsOf p, L.I i := fun i hi => hat.used i (by simp [kidsAll, hi])
  have hks : ∀ i ∈ kidsAll ps, L.I i := fun i hi => hat.used i (by simp [kidsAll, hi])
  have h := goodQuery_append hg hgs (fun σ σ' h => L.mean_congr ps h) ?_ ?_ ?_
  · refine h.mono ?_ ?_ ?_ ?_ ?_
    · rintro x ((⟨y, hy, rfl⟩ | ⟨k, hk, h1⟩) | ⟨y, hy, rfl⟩ | ⟨k, hk, h1⟩)
      · exact Or.inl ⟨y, by simp [freeVarsAll, hy], rfl⟩
      · exact Or.inr ⟨k, by simp [holesAll, hk], h1⟩
      · exact Or.inl ⟨y, by simp [freeVarsAll, hy], rfl⟩
      · exact Or.inr ⟨k, by simp [holesAll, hk], h1⟩
    · rintro x ((⟨y, hy, h1⟩ | ⟨k, hk, h1⟩) | ⟨y, hy, h1⟩ | ⟨k, hk, h1⟩)
      · exact Or.inl ⟨y, by simp [kidsAll, hy], h1⟩
      · exact Or.inr ⟨k, by simp [holesAll, hk], h1⟩
      · exact Or.inl ⟨y, by simp [kidsAll, hy], h1⟩
      · exact Or.inr ⟨k, by simp [holesAll, hk], h1⟩
    · intro σ
      simp [truthAll]
    · intro x hx
      simpa [givesAll] using hx
    · simp [tightAll]
  · rintro x hl (⟨y, hy, rfl⟩ | ⟨k, hk, h1, h2⟩)
    · exact loc_var hkp (hV' y (free_everyAll _ _ ps y hy)) hl
    · rcases hl with ⟨i, hi, h3⟩ | ⟨k', hk', h3⟩
      · exact L.ownNew i (hkp i hi) x h3 k ((L.fill.each k).supAll x h1)
      · exact L.fill.apart k k' (fun e => hnh.2.2 k' hk' k hk e.symm) x ((L.fill.each k).supAll x h1) h3
  · rintro x hl (⟨y, hy, rfl⟩ | ⟨k, hk, h1, h2⟩)
    · exact loc_var hks (hV y (free_every _ _ p y hy)) hl
    · rcases hl with ⟨i, hi, h3⟩ | ⟨k', hk', h3⟩
      · exact L.ownNew i (hks i hi) x h3 k ((L.fill.each k).supAll x h1)
      · exact L.fill.apart k k' (fun e => hnh.2.2 k hk k' hk' e) x ((L.fill.each k).supAll x h1) h3
  · rintro x (⟨i, hi, h1⟩ | ⟨k, hk, h1⟩) (⟨i', hi', h2⟩ | ⟨k', hk', h2⟩)
    · exact L.ownApart i i' (hks i hi) (hkp i' hi') (fun e => hnk.2.2 i' hi' i hi e.symm) x h1 h2
    · exact L.ownNew i (hks i hi) x h1 k' ((L.fill.each k').locAll x h2)
    · exact L.ownNew i' (hkp i' hi') x h2 k ((L.fill.each k).locAll x h1)
    · exact L.fill.apart k' k (fun e => hnh.2.2 k' hk' k hk e) x ((L.fill.each k').locAll x h2) h1

theorem good_nil {B : String → Prop} : L.GoodParts [] B :=
  goodQuery_nil.mono (sup := fun _ => False) (loc := fun _ => False) (tight := True) (by simp) (by simp) (by simp [truthAll]) (by simp [givesAll]) (by simp)

mutual
theorem good_part : ∀ (p : Part) (K T : List String) (B : String → Prop), L.At K T B (everyVar L.Γ.args L.Γ.ante p) (holesOf p) (kidsOf p) →
    fitsPart L.Γ p K T = true → L.GoodPart p B
  | .basic b, K, T, B, hat, hf => good_basic hat (by simpa [fitsPart] using hf)
  | .quant k xs q, K, T, B, hat, hf => by
    simp only [fitsPart, Bool.and_eq_true, within_iff, List.all_eq_true, Bool.not_eq_true', List.contains_eq_mem, decide_eq_false_iff_not] at hf
    obtain ⟨⟨⟨h1, h2⟩, h3⟩, h4⟩ := hf
    refine good_quant (K := K) (T := T) hat ?_ h2 (fun y hy => List.mem_append.1 (h3 y hy)) h4
    exact good_parts q K T B ⟨hat.up, hat.known, fun y hy => hat.new y (by simp [everyVar, hy]), hat.hole, hat.kid,
      fun y hy => hat.vars y (by simp [everyVar, hy]), hat.used, hat.holesOnce, hat.kidsOnce⟩ h1
  | .number k x q n, K, T, B, hat, hf => by
    simp only [fitsPart, Bool.and_eq_true, within_iff, List.all_eq_true, Bool.not_eq_true', List.contains_eq_mem, decide_eq_false_iff_not,
      decide_eq_true_eq] at hf
    obtain ⟨⟨⟨⟨⟨⟨h1, h2⟩, h3⟩, h4⟩, h5⟩, h6⟩, h7⟩ := hf
    have hat1 : L.At K T B (x :: everyVarAll L.Γ.args L.Γ.ante q) (holesAll q) (kidsAll q) :=
      ⟨hat.up, hat.known, fun y hy => hat.new y (by simp at hy; rcases hy with h | h <;> simp [everyVar, h]), hat.hole, hat.kid,
        fun y hy => hat.vars y (by simp at hy; rcases hy with h | h <;> simp [everyVar, h]), hat.used, hat.holesOnce, hat.kidsOnce⟩
    refine good_number hat1 ?_ h2 (fun y hy => by have := h3 y hy; simp at this; rcases this with h | h <;> simp [h]) h4 h5 h6 h7
    exact good_parts q K T B ⟨hat.up, hat.known, fun y hy => hat1.new y (by simp [hy]), hat.hole, hat.kid,
      fun y hy => hat1.vars y (by simp [hy]), hat.used, hat.holesOnce, hat.kidsOnce⟩ h1
  | .all x r q, K, T, B, hat, hf => by
    simp only [fitsPart, Bool.and_eq_true, within_iff, List.all_eq_true, Bool.not_eq_true', List.contains_eq_mem, decide_eq_false_iff_not,
      decide_eq_true_eq] at hf
    obtain ⟨⟨⟨⟨⟨⟨⟨h1, h2⟩, h3⟩, h4⟩, h5⟩, h6⟩, h7⟩, h8⟩ := hf
    have hnh := hat.holesOnce
    have hnk := hat.kidsOnce
    simp only [holesOf, kidsOf, List.nodup_append] at hnh hnk
    have hr : L.At K T B (x :: everyVarAll L.Γ.args L.Γ.ante r) (holesAll r) (kidsAll r) :=
      ⟨hat.up, hat.known, fun y hy => hat.new y (by simp at hy; rcases hy with h | h <;> simp [everyVar, h]),
        fun k hk => hat.hole k (by simp [holesOf, hk]), fun i hi => hat.kid i (by simp [kidsOf, hi]),
        fun y hy => hat.vars y (by simp at hy; rcases hy with h | h <;> simp [everyVar, h]), fun i hi => hat.used i (by simp [kidsOf, hi]),
        hnh.1, hnk.1⟩
    have hVx : L.V x := hr.vars x (by simp)
    have hq : L.At (x :: K) (x :: T) (Known.more B [L.ρ x]) (everyVarAll L.Γ.args L.Γ.ante q) (holesAll q) (kidsAll q) := by
      have hVq : ∀ y ∈ everyVarAll L.Γ.args L.Γ.ante q, L.V y := fun y hy => hat.vars y (by simp [everyVar, hy])
      refine ⟨fun z hz => Or.inl (hat.up z hz), ?_, ?_, ?_, ?_, hVq, fun i hi => hat.used i (by simp [kidsOf, hi]), hnh.2.1, hnk.2.1⟩
      · intro y hy
        rcases List.mem_cons.1 hy with rfl | hy
        · exact Or.inr (by simp)
        · exact Or.inl (hat.known y hy)
      · intro y hy hyT
        simp only [List.mem_cons, not_or] at hyT
        rintro (hb | hb)
        · exact hat.new y (by simp [everyVar, hy]) hyT.2 hb
        · simp at hb
          exact hyT.1 (L.inj y x (hVq y hy) hVx hb)
      · intro k hk z hz
        rintro (hb | hb)
        · exact hat.hole k (by simp [holesOf, hk]) z hz hb
        · simp at hb
          subst hb
          by_cases ha : x ∈ L.Γ.ante
          · exact Or.inr (List.mem_map_of_mem ha)
          · exact absurd hz (L.varNew x hVx ha k)
      · intro i hi z hz
        rintro (hb | hb)
        · exact hat.kid i (by simp [kidsOf, hi]) z hz hb
        · simp at hb
          exact L.ownVar i (hat.used i (by simp [kidsOf, hi])) z hz x hVx hb
    refine good_all hr ?_ hq (good_parts q _ _ _ hq h5) h1 (fun y hy => by have := h4 y hy; simp at this; rcases this with h | h <;> simp [h]) h6 h7 h8 h3
    exact good_parts r K T B ⟨hr.up, hr.known, fun y hy => hr.new y (by simp [hy]), hr.hole, hr.kid,
      fun y hy => hr.vars y (by simp [hy]), hr.used, hr.holesOnce, hr.kidsOnce⟩ h2
  | .hole j, K, T, B, hat, hf => good_hole hat (by simpa [fitsPart, within_iff] using hf)
  | .app i es, K, T, B, hat, hf => good_app hat hf fun e he => good_many es e he
theorem good_parts : ∀ (ps : List Part) (K T : List String) (B : String → Prop), L.At K T B (everyVarAll L.Γ.args L.Γ.ante ps) (holesAll ps) (kidsAll ps) →
    fitsAll L.Γ ps K T = true → L.GoodParts ps B
  | [], _, _, _, _, _ => good_nil
  | p :: ps, K, T, B, hat, hf => by
    simp only [fitsAll, Bool.and_eq_true] at hf
    have hg := good_part p K T B hat.first hf.1
    exact good_cons hat hg (good_parts ps _ _ _ (hat.next hg) hf.2)
theorem good_many : ∀ (es : List (List Part)), ∀ e ∈ es, ∀ (K T : List String) (B : String → Prop),
    L.At K T B (everyVarAll L.Γ.args L.Γ.ante e) (holesAll e) (kidsAll e) → fitsAll L.Γ e K T = true → L.GoodParts e B
  | [], e, he, _, _, _, _, _ => by simp at he
  | e' :: es, e, he, K, T, B, hat, hf => by
    rcases List.mem_cons.1 he with h | h
    · rw [h] at hat hf ⊢
      exact good_parts e' K T B hat hf
    · exact good_many es e h K T B hat hf
end

end Place

end Verif
