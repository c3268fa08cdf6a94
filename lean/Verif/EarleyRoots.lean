import Verif.EarleyTrees

/-!
# The roots of the parse trees, errors, history and depth
-/

namespace Verif

variable {A : Type}

/-! ## Roots -/

/-- The constituent a sentence is an instance of. -/
def IsRoot (c : Constituent) : Prop := c.predicate = cRoot ∧ c.pos = .relation

theorem chain_single {chart : Chart A} {c : Constituent} {i k : Nat} {seq : List (EState A)} (h : StateChain chart [c] i k seq) :
    ∃ s, seq = [s] ∧ s ∈ chart.states k ∧ s.isComplete = true ∧ s.start = i ∧ s.fin = k ∧ s.rule.ante.syn = c.syn := by
  cases h with
  | cons h1 h2 h3 h4 h5 h6 => cases h6; exact ⟨_, rfl, h1, h2, h3, h4, h5⟩

theorem mapList_single {α β : Type} {f : α → Out β} {x : α} {ys : List β} (h : Out.mapList f [x] = .ok ys) : ∃ y, f x = .ok y ∧ ys = [y] := by
  have := mapList_ok h
  cases this with
  | cons h1 h2 => cases h2; exact ⟨_, h1, rfl⟩

theorem product_single {α : Type} {xs ys : List α} (h : ys ∈ product [xs]) : ∃ x ∈ xs, ys = [x] := by
  have := mem_product.1 h
  cases this with
  | cons h1 h2 => cases h2; exact ⟨_, h1, rfl⟩

theorem gamma_not_terminal (E : Oracles) : ∀ c ∈ (gammaRule (A := A) E).cons, c.args.head? ≠ some cTerminal := by
  intro c hc
  simp only [gammaRule, GRule.new, List.mem_singleton] at hc
  subst hc; simp [deltaC, cTerminal]

/-- A completed state for `delta`. -/
theorem delta_state {E : Oracles} {rules : List (GRule A)} (ok : RulesOk rules) {text : Str} (hl : LowerOk E text) {chart : Chart A}
    (f : Finished E (startedGrammar E rules) text chart) {k : Nat} {s : EState A} (hs : s ∈ chart.states k)
    (ha : s.rule.ante.syn = deltaC.syn) : IsBase E (startedGrammar E rules) s.rule ∧ ∃ m, s.rule = deltaRule E m := by
  have v := (f.items k s hs).1.valid (chartOk ok hl)
  simp only [Constituent.syn, Prod.mk.injEq] at ha
  rcases v.kind with hb | ⟨_, _, _, _, hsc⟩
  · refine ⟨hb, ?_⟩
    rcases hb with hb | hb
    · rw [hb] at ha
      have := ha.1
      simp [gammaRule, GRule.new, gammaC, deltaC, cGamma, cDelta] at this
    · rcases isRule_started hb with h | h
      · obtain ⟨r0, h0, h1, _⟩ := h.cons_mem
        exact absurd (by rw [← h1]; exact ha.1) (ok.not_delta r0 h0)
      · exact h
  · exact absurd ha.2.2 (scanStates_relation hsc)

theorem roots_sound {E : Oracles} {rules : List (GRule A)} (ok : RulesOk rules) {text : Str} (hl : LowerOk E text) {chart : Chart A}
    (f : Finished E (startedGrammar E rules) text chart) {fuel : Nat} {roots : List (ParseTree A)}
    (h : extractRoots E fuel chart text.length = .ok roots) {t : ParseTree A} (ht : t ∈ roots) :
    ∃ c d, IsRoot c ∧ Derives E rules text [c] 0 text.length [d] ∧ TreesOf Eq [d] [t] := by
  have cok := chartOk ok hl
  simp only [extractRoots] at h
  cases hcm : chart.completed text.length with
  | none => rw [hcm] at h; simp only [Out.ok.injEq] at h; subst h; simp at ht
  | some l =>
    rw [hcm] at h
    simp only at h
    cases fuel with
    | zero => simp [createTrees, Out.bind] at h
    | succ fuel =>
      cases hg : createTrees chart (fuel + 1) (completeGamma E text.length) with
      | err e => rw [hg] at h; simp [Out.bind] at h
      | oof => rw [hg] at h; simp [Out.bind] at h
      | ok nodes =>
        rw [hg] at h
        simp only [Out.bind] at h
        obtain ⟨node, hn, hst⟩ : ∃ node ∈ nodes, stripRoot node = .ok t := by
          have := mapList_ok h
          clear h hg
          induction this with
          | nil => simp at ht
          | cons hr _ ih =>
            rcases List.mem_cons.1 ht with rfl | ht
            · exact ⟨_, by simp, hr⟩
            · obtain ⟨n, h1, h2⟩ := ih ht
              exact ⟨n, List.mem_cons_of_mem _ h1, h2⟩
        obtain ⟨seq, trees, children, hch, hmt, hp, rfl⟩ :=
          ((createTrees_mem cok f (by simp [completeGamma, gammaRule, GRule.new]) (gamma_not_terminal E) hg).2 node).1 hn
        obtain ⟨s, rfl, hs, hcomp, hsst, hsf, hsa⟩ := chain_single hch
        obtain ⟨tl, htl, rfl⟩ := mapList_single hmt
        obtain ⟨td, htd, rfl⟩ := product_single hp
        obtain ⟨hb, m, hm⟩ := delta_state ok hl f hs hsa
        cases fuel with
        | zero => simp [createTrees] at htl
        | succ fuel =>
          obtain ⟨seq2, trees2, children2, hch2, hmt2, hp2, rfl⟩ :=
            ((createTrees_mem cok f (by rw [hm]; simp [deltaRule, GRule.new]) (base_relation ok hb).2 htl).2 td).1 htd
          rw [hm] at hch2
          obtain ⟨s2, rfl, hs2, hcomp2, hsst2, hsf2, hsa2⟩ := chain_single hch2
          obtain ⟨tl2, htl2, rfl⟩ := mapList_single hmt2
          obtain ⟨t2, ht2, rfl⟩ := product_single hp2
          simp only [stripRoot, ParseTree.children, Out.ok.injEq] at hst
          subst hst
          have hsf' : s.fin = text.length := hsf
          have hst' : s.start = 0 := hsst
          rw [hsf'] at hs2
          obtain ⟨d, hd1, hd2⟩ := createTrees_sound ok hl f fuel hs2 hcomp2 htl2 t2 ht2 _ hsa2 rfl (by simp [cRoot, cDelta])
            (by simp [cRoot, cGamma])
          rw [hsst2, hst'] at hd1
          exact ⟨_, d, ⟨rfl, rfl⟩, hd1, hd2⟩

theorem roots_complete {E : Oracles} {rules : List (GRule A)} (ok : RulesOk rules) {text : Str} (hl : LowerOk E text) {chart : Chart A}
    (f : Finished E (startedGrammar E rules) text chart) {fuel : Nat} {roots : List (ParseTree A)}
    (h : extractRoots E fuel chart text.length = .ok roots) {c : Constituent} {d : DTree A} (hc : IsRoot c)
    (hd : Derives E rules text [c] 0 text.length [d]) :
    ∃ t ∈ roots, TreesOf (fun r r' => r.equals r' = true) [d] [t] := by
  have cok := chartOk ok hl
  -- the number of arguments of the root is known
  have hcount : c.args.length ∈ (Grammar.new rules).findArgumentCounts cRoot := by
    cases hd with
    | leaf ht _ =>
      obtain ⟨_, _, ⟨hp, _⟩ | ⟨hp, _⟩⟩ := ht <;> rw [hc.2] at hp <;> simp at hp
    | @node _ _ _ _ _ r _ _ hu he _ _ =>
      have := Constituent.equals_iff.1 he
      simp only [Constituent.syn, Prod.mk.injEq] at this
      exact mem_findArgumentCounts (findRules_new.2 ⟨hu, this.1.trans hc.1, this.2.1⟩)
  -- the delta state is predicted
  obtain ⟨s0, hs0, he0⟩ := (f.treated 0 _ f.start).predicted (by simp [EState.isComplete, incompleteGamma, gammaRule, GRule.new]) deltaC rfl
    (deltaRule E c.args.length) (mem_started.2 (.inr ⟨rfl, rfl, _, hcount, rfl⟩))
  have hs0' : s0 ∈ chart.states 0 := hs0
  simp only [EState.syn, Prod.mk.injEq] at he0
  have hcons0 : s0.rule.cons.map Constituent.syn = [] ++ [c].map Constituent.syn ++ [] := by
    rw [(Prod.mk.inj he0.1).2]
    simp [deltaRule, GRule.new, Constituent.syn, hc.1, hc.2]
  obtain ⟨⟨st1, hst1, a1, a2, a3⟩, seq, hchain, hcov⟩ := derives_chart ok hl f hd s0 [] [] hs0' hcons0 (by rw [he0.2.1]; rfl)
    (by intro x hx hp; simp only [List.mem_singleton] at hx; subst hx; rw [hc.2] at hp; simp at hp)
  obtain ⟨s, rfl, hs, hcomp, hsst, hsf, hsa⟩ := chain_single hchain
  have hcv : Covers chart s d := by cases hcov; assumption
  have hsyn1 := a1.trans he0.1
  have hcomp1 : st1.isComplete = true := syn_complete hsyn1 (by rw [a2, he0.2.1]; rfl)
  have hante1 : st1.rule.ante.syn = deltaC.syn := (Prod.mk.inj hsyn1).1
  have hst10 : st1.start = 0 := by rw [a3, he0.2.2.1]; rfl
  obtain ⟨hb1, m, hm⟩ := delta_state ok hl f hst1 hante1
  obtain ⟨_, hf1⟩ := f.items _ _ hst1
  simp only [extractRoots] at h
  cases hcm : chart.completed text.length with
  | none =>
    rw [f.completed] at hcm
    simp only [someList] at hcm
    split at hcm
    next he =>
      have : st1 ∈ (chart.states text.length).filter EState.isComplete := List.mem_filter.2 ⟨hst1, hcomp1⟩
      rw [he] at this; simp at this
    next => simp at hcm
  | some l =>
    rw [hcm] at h
    simp only at h
    cases fuel with
    | zero => simp [createTrees, Out.bind] at h
    | succ fuel =>
      cases hg : createTrees chart (fuel + 1) (completeGamma E text.length) with
      | err e => rw [hg] at h; simp [Out.bind] at h
      | oof => rw [hg] at h; simp [Out.bind] at h
      | ok nodes =>
        rw [hg] at h
        simp only [Out.bind] at h
        obtain ⟨gtot, gmem⟩ := createTrees_mem cok f (by simp [completeGamma, gammaRule, GRule.new]) (gamma_not_terminal E) hg
        have hch1 : StateChain chart (completeGamma (A := A) E text.length).rule.cons (completeGamma (A := A) E text.length).start
            (completeGamma (A := A) E text.length).fin [st1] := .cons hst1 hcomp1 hst10 hf1 hante1 (.nil _)
        obtain ⟨trees, htr⟩ := gtot [st1] hch1
        obtain ⟨tl, htl, rfl⟩ := mapList_single htr
        cases fuel with
        | zero => simp [createTrees] at htl
        | succ fuel =>
          obtain ⟨dtot, dmem⟩ := createTrees_mem cok f (by rw [hm]; simp [deltaRule, GRule.new]) (base_relation ok hb1).2 htl
          have hch2 : StateChain chart st1.rule.cons st1.start st1.fin [s] := by
            rw [hst10, hf1]
            exact hchain.transport (by rw [(Prod.mk.inj a1).2, hcons0]; simp)
          obtain ⟨trees2, htr2⟩ := dtot [s] hch2
          obtain ⟨tl2, htl2, rfl⟩ := mapList_single htr2
          obtain ⟨t, ht, hrep⟩ := hcv fuel tl2 htl2
          have hd1 := (dmem (.node st1.rule.ante.predicate [t] [] st1.rule)).2
            ⟨[s], [tl2], [t], hch2, htr2, mem_product.2 (.cons ht .nil), rfl⟩
          have hg1 := (gmem _).2 ⟨[st1], [tl], [_], hch1, htr, mem_product.2 (.cons hd1 .nil), rfl⟩
          refine ⟨t, ?_, hrep⟩
          have hall := mapList_ok h
          clear h hg gmem gtot
          induction hall with
          | nil => simp at hg1
          | cons hr _ ih =>
            rcases List.mem_cons.1 hg1 with rfl | hg1
            · simp only [stripRoot, ParseTree.children, Out.ok.injEq] at hr
              subst hr; simp
            · exact List.mem_cons_of_mem _ (ih hg1)

/-! ## No exceptions -/

/-- At the start and the end of each item another one was completed. -/
theorem Item.keys {E : Oracles} {g : Grammar A} {text : Str} {s : EState A} (h : Item E g text s) :
    (s.start = 0 ∨ ∃ t, Item E g text t ∧ t.isComplete = true ∧ t.fin = s.start) ∧
    (s.fin = 0 ∨ ∃ t, Item E g text t ∧ t.isComplete = true ∧ t.fin = s.fin) := by
  induction h with
  | init => exact ⟨.inl rfl, .inl rfl⟩
  | predict _ _ _ _ ih => exact ⟨ih.2, ih.2⟩
  | @scan s c t hi hc hx hlt ht ih =>
    obtain ⟨h1, h2, h3, _⟩ := scanStates_start ht
    refine ⟨by rw [h1]; exact ih.2, .inr ⟨t, .scan hi hc hx hlt ht, ?_, rfl⟩⟩
    simp [EState.isComplete, h2, h3]
  | @complete s c a hs hc hi hf ha ihs ihc =>
    obtain ⟨x, _, _, _, _, rfl⟩ := advance_eq ha
    exact ⟨ihc.1, .inr ⟨s, hs, hc, rfl⟩⟩

theorem Finished.key {E : Oracles} {g : Grammar A} {text : Str} {chart : Chart A} (f : Finished E g text chart) {s : EState A}
    (h : Item E g text s) (hc : s.isComplete = true) : chart.completed s.fin ≠ none := by
  obtain ⟨s', hs', he⟩ := f.complete h
  have hc' : s'.isComplete = true := by
    simp only [EState.syn, Prod.mk.injEq] at he
    simp only [EState.isComplete, syn_length he.1, he.2.1]
    exact hc
  rw [f.completed]
  simp only [someList]
  split
  next h =>
    have : s' ∈ (chart.states s.fin).filter EState.isComplete := List.mem_filter.2 ⟨hs', hc'⟩
    rw [h] at this; simp at this
  next => simp

/-- The search for sequences returns. -/
theorem findSeqs_total {E : Oracles} {g : Grammar A} {text : Str} {chart : Chart A} (f : Finished E g text chart) {parent : EState A}
    (k : Nat) : ∀ {fin : Nat}, k < parent.rule.cons.length → (fin = 0 ∨ chart.completed fin ≠ none) →
    ∃ seqs, findSeqs chart parent k fin = .ok seqs := by
  induction k with
  | zero =>
    intro fin hk hfin
    rw [findSeqs]
    by_cases h0 : fin = 0
    · exact ⟨[], by rw [if_pos h0]⟩
    · rw [if_neg h0]
      cases hcm : chart.completed fin with
      | none => exact absurd hcm (hfin.resolve_left h0)
      | some l =>
        refine flatMapList_total ?_
        intro s _
        rw [List.getElem?_eq_getElem hk]
        simp only
        split
        · split
          · exact ⟨_, rfl⟩
          · exact ⟨_, rfl⟩
        · exact ⟨_, rfl⟩
  | succ k ih =>
    intro fin hk hfin
    rw [findSeqs]
    by_cases h0 : fin = 0
    · exact ⟨[], by rw [if_pos h0]⟩
    · rw [if_neg h0]
      cases hcm : chart.completed fin with
      | none => exact absurd hcm (hfin.resolve_left h0)
      | some l =>
        refine flatMapList_total ?_
        intro s hs
        rw [List.getElem?_eq_getElem hk]
        simp only
        split
        · obtain ⟨hs1, _⟩ := (completed_mem f hcm).1 hs
          have hkey := (f.items _ _ hs1).1.keys.1
          obtain ⟨prev, hp⟩ := ih (fin := s.start) (by omega) (by
            rcases hkey with h | ⟨t, h1, h2, h3⟩
            · exact .inl h
            · rw [← h3]; exact .inr (f.key h1 h2))
          exact ⟨_, by rw [hp]; rfl⟩
        · exact ⟨_, rfl⟩

/-- Making trees raises nothing. -/
theorem createTrees_no_err {E : Oracles} {g : Grammar A} {text : Str} {chart : Chart A} (ok : ChartOk E g text) (f : Finished E g text chart)
    (fuel : Nat) : ∀ {s : EState A}, s.rule.cons ≠ [] → (s.fin = 0 ∨ chart.completed s.fin ≠ none) → ∀ e,
    createTrees chart fuel s ≠ .err e := by
  induction fuel with
  | zero => intro s _ _ e; simp [createTrees]
  | succ fuel ih =>
    intro s hne hfin e
    rw [createTrees]
    cases hcons : s.rule.cons with
    | nil => exact absurd hcons hne
    | cons x xs =>
      simp only
      split
      · simp
      · obtain ⟨seqs, hfs⟩ := findSeqs_total f xs.length (parent := s) (by rw [hcons]; simp) hfin
        rw [hfs]
        simp only [Out.bind]
        refine flatMapList_no_err ?_
        intro seq hseq
        have hch := (findSeqs_mem ok f xs.length (by rw [hcons]; simp) hfs seq).1 hseq
        have hmem : ∀ t ∈ seq, ∃ k, t ∈ chart.states k ∧ t.isComplete = true := by
          clear hfs hseq
          generalize s.rule.cons.take (xs.length + 1) = cs at hch
          generalize s.start = i at hch
          generalize s.fin = k at hch
          induction hch with
          | nil => simp
          | cons h1 h2 _ _ _ _ ih =>
            intro t ht
            rcases List.mem_cons.1 ht with rfl | ht
            · exact ⟨_, h1, h2⟩
            · exact ih t ht
        have := mapList_no_err (f := createTrees chart fuel) (xs := seq) (e := e) (by
          intro t ht
          obtain ⟨k, h1, h2⟩ := hmem t ht
          obtain ⟨hit, hf⟩ := f.items _ _ h1
          exact ih (hit.valid ok).cons_ne (.inr (f.key hit h2)) e)
        cases hm : Out.mapList (createTrees chart fuel) seq with
        | err e' => rw [hm] at this; simpa using this
        | oof => simp
        | ok trees => simp

theorem extractRoots_no_err {E : Oracles} {rules : List (GRule A)} (ok : RulesOk rules) {text : Str} (hl : LowerOk E text) {chart : Chart A}
    (f : Finished E (startedGrammar E rules) text chart) (fuel : Nat) (e : Err) : extractRoots E fuel chart text.length ≠ .err e := by
  have cok := chartOk ok hl
  simp only [extractRoots]
  cases hcm : chart.completed text.length with
  | none => simp
  | some l =>
    simp only
    cases hg : createTrees chart fuel (completeGamma E text.length) with
    | err e' =>
      exact absurd hg (createTrees_no_err cok f fuel (by simp [completeGamma, gammaRule, GRule.new])
        (.inr (by show chart.completed text.length ≠ none; rw [hcm]; simp)) e')
    | oof => simp [Out.bind]
    | ok nodes =>
      simp only [Out.bind]
      refine mapList_no_err ?_
      intro node hn
      cases fuel with
      | zero => simp [createTrees] at hg
      | succ fuel =>
        obtain ⟨seq, trees, children, hch, hmt, hp, rfl⟩ :=
          ((createTrees_mem cok f (by simp [completeGamma, gammaRule, GRule.new]) (gamma_not_terminal E) hg).2 node).1 hn
        obtain ⟨s, rfl, hs, hcomp, hsst, hsf, hsa⟩ := chain_single hch
        obtain ⟨tl, htl, rfl⟩ := mapList_single hmt
        obtain ⟨td, htd, rfl⟩ := product_single hp
        obtain ⟨hb, m, hm⟩ := delta_state ok hl f hs hsa
        cases fuel with
        | zero => simp [createTrees] at htl
        | succ fuel =>
          obtain ⟨seq2, trees2, children2, hch2, hmt2, hp2, rfl⟩ :=
            ((createTrees_mem cok f (by rw [hm]; simp [deltaRule, GRule.new]) (base_relation ok hb).2 htl).2 td).1 htd
          rw [hm] at hch2
          obtain ⟨s2, rfl, _⟩ := chain_single hch2
          obtain ⟨tl2, htl2, rfl⟩ := mapList_single hmt2
          obtain ⟨t2, ht2, rfl⟩ := product_single hp2
          simp [stripRoot, ParseTree.children]

theorem innerLoop_err_mono {E : Oracles} {g : Grammar A} {text : Str} {i : Nat} {fuel fuel' : Nat} (h : fuel ≤ fuel') {e : Err} :
    ∀ {j : Nat} {chart : Chart A}, innerLoop E g text i fuel j chart = .err e → innerLoop E g text i fuel' j chart = .err e := by
  induction fuel generalizing fuel' with
  | zero =>
    intro j chart hr
    rw [innerLoop] at hr
    cases hj : (chart.states i)[j]? with
    | none => rw [hj] at hr; simp at hr
    | some s => rw [hj] at hr; simp at hr
  | succ fuel ih =>
    intro j chart hr
    obtain ⟨f, rfl⟩ : ∃ f, fuel' = f + 1 := ⟨fuel' - 1, by omega⟩
    rw [innerLoop] at hr ⊢
    cases hj : (chart.states i)[j]? with
    | none => rw [hj] at hr; exact hr
    | some s =>
      rw [hj] at hr
      simp only at hr ⊢
      cases hs : step E g text i chart s with
      | err e' => rw [hs] at hr; exact hr
      | oof => rw [hs] at hr; exact hr
      | ok c =>
        rw [hs] at hr
        simp only [Out.bind] at hr ⊢
        exact ih (by omega) hr

theorem outerLoop_err_mono {E : Oracles} {g : Grammar A} {text : Str} {fuel fuel' : Nat} (h : fuel ≤ fuel') {e : Err} {k : Nat} :
    ∀ {i : Nat} {chart : Chart A}, outerLoop E g text fuel k i chart = .err e → outerLoop E g text fuel' k i chart = .err e := by
  induction k with
  | zero => intro i chart hr; simp [outerLoop] at hr
  | succ k ih =>
    intro i chart hr
    rw [outerLoop] at hr ⊢
    cases hs : innerLoop E g text i fuel 0 chart with
    | err e' =>
      rw [hs] at hr
      simp only [Out.bind, Out.err.injEq] at hr
      subst hr
      rw [innerLoop_err_mono h hs]; rfl
    | oof => rw [hs] at hr; simp [Out.bind] at hr
    | ok c =>
      rw [hs] at hr
      simp only [Out.bind] at hr
      rw [innerLoop_mono h hs]
      exact ih hr

theorem buildChart_no_err {E : Oracles} {g : Grammar A} {text : Str} (ok : ChartOk E g text) (fuel : Nat) (e : Err) :
    buildChart E fuel g text ≠ .err e := by
  intro h
  obtain ⟨c, hc, _⟩ := buildChart_ok ok (fuel := max fuel (enoughFuel E g text (text.length + 1))) (by omega)
  obtain ⟨c0, hc0, _⟩ := initial_inv E g text
  simp only [buildChart, hc0, Out.bind] at h hc
  rw [outerLoop_err_mono (by omega) h] at hc
  simp at hc

/-! ## History -/

theorem enqueueAll_append (E : Oracles) (n : Nat) (l l' : List (EState A)) (chart : Chart A) :
    chart.enqueueAll E n (l ++ l') = (chart.enqueueAll E n l).bind fun c => c.enqueueAll E n l' := by
  induction l generalizing chart with
  | nil => rfl
  | cons s l ih =>
    simp only [List.cons_append, Chart.enqueueAll]
    cases chart.enqueue E n s s.fin with
    | ok c => simp only [Out.bind]; exact ih c
    | err e => rfl
    | oof => rfl

theorem enqueue_present {E : Oracles} {n : Nat} {chart chart' : Chart A} {s : EState A} {p : Nat} (h : chart.enqueue E n s p = .ok chart') :
    p ≤ n ∧ (chart'.states p).any (fun t => t.same E s) = true ∧
    ∀ q t, (chart.states q).any (fun u => u.same E t) = true → (chart'.states q).any (fun u => u.same E t) = true := by
  simp only [Chart.enqueue] at h
  split at h
  next => simp at h
  next hp =>
    split at h
    next ha =>
      simp only [Out.ok.injEq] at h
      subst h
      exact ⟨by omega, ha, fun _ _ h => h⟩
    next ha =>
      simp only [Out.ok.injEq] at h
      subst h
      refine ⟨by omega, by simp [EState.same_refl], ?_⟩
      intro q t hq
      simp only
      split
      · rw [List.any_append, hq]; rfl
      · exact hq

theorem enqueueAll_present {E : Oracles} {n : Nat} {l : List (EState A)} {chart chart' : Chart A} (h : chart.enqueueAll E n l = .ok chart') :
    (∀ s ∈ l, s.fin ≤ n ∧ (chart'.states s.fin).any (fun t => t.same E s) = true) ∧
    ∀ q t, (chart.states q).any (fun u => u.same E t) = true → (chart'.states q).any (fun u => u.same E t) = true := by
  induction l generalizing chart with
  | nil =>
    simp only [Chart.enqueueAll, Out.ok.injEq] at h
    subst h; exact ⟨by simp, fun _ _ h => h⟩
  | cons s l ih =>
    simp only [Chart.enqueueAll] at h
    cases hs : chart.enqueue E n s s.fin with
    | err e => rw [hs] at h; simp [Out.bind] at h
    | oof => rw [hs] at h; simp [Out.bind] at h
    | ok c =>
      rw [hs] at h
      simp only [Out.bind] at h
      obtain ⟨a1, a2, a3⟩ := enqueue_present hs
      obtain ⟨b1, b2⟩ := ih h
      refine ⟨?_, fun q t hq => b2 q t (a3 q t hq)⟩
      intro t ht
      rcases List.mem_cons.1 ht with rfl | ht
      · exact ⟨a1, b2 _ _ a2⟩
      · exact b1 t ht

theorem enqueueAll_again {E : Oracles} {n : Nat} {l : List (EState A)} {chart : Chart A}
    (h : ∀ s ∈ l, s.fin ≤ n ∧ (chart.states s.fin).any (fun t => t.same E s) = true) : chart.enqueueAll E n l = .ok chart := by
  induction l with
  | nil => rfl
  | cons s l ih =>
    obtain ⟨h1, h2⟩ := h s (by simp)
    simp only [Chart.enqueueAll, Chart.enqueue]
    rw [if_neg (by omega), if_pos h2]
    exact ih fun t ht => h t (List.mem_cons_of_mem _ ht)

/-- Rules that are in the list already change nothing. -/
theorem enqueueAll_copy (E : Oracles) (n : Nat) (l l' : List (EState A)) (h : ∀ s ∈ l', s ∈ l) (chart : Chart A) :
    chart.enqueueAll E n (l ++ l') = chart.enqueueAll E n l := by
  rw [enqueueAll_append]
  cases hl : chart.enqueueAll E n l with
  | err e => rfl
  | oof => rfl
  | ok c =>
    simp only [Out.bind]
    exact enqueueAll_again fun s hs => (enqueueAll_present hl).1 s (h s hs)

/-- Two grammars of which one only has copies of the rules of the other. -/
def Copies (g g' : Grammar A) : Prop := ∀ p n, ∃ l, g'.findRules p n = g.findRules p n ++ l ∧ ∀ r ∈ l, r ∈ g.findRules p n

theorem buildChart_copies {E : Oracles} {g g' : Grammar A} (h : Copies g g') (fuel : Nat) (text : Str) :
    buildChart E fuel g' text = buildChart E fuel g text := by
  have hp : ∀ (chart : Chart A) (s : EState A), predict E text.length g' chart s = predict E text.length g chart s := by
    intro chart s
    simp only [predict]
    cases s.rule.cons[s.dot - 1]? with
    | none => rfl
    | some c =>
      simp only
      obtain ⟨l, h1, h2⟩ := h c.predicate c.args.length
      rw [h1, List.map_append]
      apply enqueueAll_copy
      intro t ht
      obtain ⟨r, hr, rfl⟩ := List.mem_map.1 ht
      exact List.mem_map.2 ⟨r, h2 r hr, rfl⟩
  have hs : ∀ (i : Nat) (chart : Chart A) (s : EState A), step E g' text i chart s = step E g text i chart s := by
    intro i chart s
    simp only [step, hp]
  have hi : ∀ (i fuel j : Nat) (chart : Chart A), innerLoop E g' text i fuel j chart = innerLoop E g text i fuel j chart := by
    intro i fuel
    induction fuel with
    | zero => intro j chart; rw [innerLoop, innerLoop]
    | succ fuel ih =>
      intro j chart
      rw [innerLoop, innerLoop]
      simp only [hs, ih]
  have ho : ∀ (k i : Nat) (chart : Chart A), outerLoop E g' text fuel k i chart = outerLoop E g text fuel k i chart := by
    intro k
    induction k with
    | zero => intro i chart; rfl
    | succ k ih => intro i chart; simp only [outerLoop, hi, ih]
  simp only [buildChart, ho]

theorem addStartRules_counts (E : Oracles) (g : Grammar A) :
    (addStartRules E g).findArgumentCounts cRoot = g.findArgumentCounts cRoot := by
  have h : ∀ (l : List Nat) (g : Grammar A), (l.foldl (fun g c => g.addRule (deltaRule E c)) g).findArgumentCounts cRoot =
      g.findArgumentCounts cRoot := by
    intro l
    induction l with
    | nil => intro g; rfl
    | cons c l ih =>
      intro g
      rw [List.foldl_cons, ih]
      simp only [Grammar.findArgumentCounts, Grammar.addRule]
      have hne : ¬ (deltaRule (A := A) E c).ante.predicate = cRoot := by
        simp [deltaRule, GRule.new, deltaC, cRoot, cDelta]
      rw [Assoc.get_set, if_neg hne]
      cases (Assoc.get g (deltaRule (A := A) E c).ante.predicate).isNone with
      | true => rw [if_pos rfl, Assoc.get_set, if_neg hne]
      | false => rfl
  exact h _ g

/-- The grammar after any number of parses. -/
def afterParses (E : Oracles) (g : Grammar A) : Nat → Grammar A
  | 0 => g
  | k + 1 => addStartRules E (afterParses E g k)

theorem afterParses_rules (E : Oracles) (g : Grammar A) (k : Nat) :
    (afterParses E g k).findArgumentCounts cRoot = g.findArgumentCounts cRoot ∧
    ∀ p n, (afterParses E g k).findRules p n = g.findRules p n ++ (List.replicate k
      (if p = cDelta ∧ n = 1 then (g.findArgumentCounts cRoot).map (deltaRule E) else [])).flatten := by
  induction k with
  | zero => exact ⟨rfl, by intro p n; simp [afterParses]⟩
  | succ k ih =>
    refine ⟨by rw [afterParses, addStartRules_counts, ih.1], ?_⟩
    intro p n
    rw [afterParses, addStartRules_findRules, ih.1, ih.2, List.replicate_succ', List.flatten_append, List.append_assoc]
    simp

theorem copies_after (E : Oracles) (g : Grammar A) (k : Nat) : Copies (addStartRules E g) (afterParses E g (k + 1)) := by
  intro p n
  have h1 := (afterParses_rules E g (k + 1)).2 p n
  have h0 := addStartRules_findRules E g p n
  refine ⟨(List.replicate k (if p = cDelta ∧ n = 1 then (g.findArgumentCounts cRoot).map (deltaRule E) else [])).flatten, ?_, ?_⟩
  · rw [h1, h0, List.replicate_succ, List.flatten_cons, List.append_assoc]
  · intro r hr
    rw [h0]
    refine List.mem_append_right _ ?_
    obtain ⟨l, hl, hr⟩ := List.mem_flatten.1 hr
    rw [(List.mem_replicate.1 hl).2] at hr
    exact hr

end Verif
