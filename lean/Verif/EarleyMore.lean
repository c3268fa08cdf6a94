import Verif.EarleyRoots

/-!
# The depth of the extraction; the longest consumed prefix
-/

namespace Verif

variable {A : Type}

/-! ## Specification: unit rules -/

/-- `y` is rewritten to the single constituent `x` by a rule. -/
def UnitStep (rules : List (GRule A)) (x y : Str × Nat × PosType) : Prop :=
  ∃ r c, Usable rules r ∧ r.cons = [c] ∧ c.syn = x ∧ r.ante.syn = y

/-! ## Fuel -/

theorem flatMapList_mono {α β : Type} {f f' : α → Out (List β)} {xs : List α} {ys : List β}
    (hf : ∀ x ∈ xs, ∀ zs, f x = .ok zs → f' x = .ok zs) (h : Out.flatMapList f xs = .ok ys) : Out.flatMapList f' xs = .ok ys := by
  induction xs generalizing ys with
  | nil => exact h
  | cons x xs ih =>
    simp only [Out.flatMapList] at h ⊢
    cases hx : f x with
    | err e => rw [hx] at h; simp [Out.bind] at h
    | oof => rw [hx] at h; simp [Out.bind] at h
    | ok zs =>
      rw [hx] at h
      rw [hf x (by simp) zs hx]
      simp only [Out.bind] at h ⊢
      cases hm : Out.flatMapList f xs with
      | err e => rw [hm] at h; simp at h
      | oof => rw [hm] at h; simp at h
      | ok ws =>
        rw [hm] at h
        rw [ih (fun u hu => hf u (List.mem_cons_of_mem _ hu)) hm]
        exact h

theorem mapList_mono {α β : Type} {f f' : α → Out β} {xs : List α} {ys : List β}
    (hf : ∀ x ∈ xs, ∀ zs, f x = .ok zs → f' x = .ok zs) (h : Out.mapList f xs = .ok ys) : Out.mapList f' xs = .ok ys := by
  induction xs generalizing ys with
  | nil => exact h
  | cons x xs ih =>
    simp only [Out.mapList] at h ⊢
    cases hx : f x with
    | err e => rw [hx] at h; simp [Out.bind] at h
    | oof => rw [hx] at h; simp [Out.bind] at h
    | ok zs =>
      rw [hx] at h
      rw [hf x (by simp) zs hx]
      simp only [Out.bind] at h ⊢
      cases hm : Out.mapList f xs with
      | err e => rw [hm] at h; simp at h
      | oof => rw [hm] at h; simp at h
      | ok ws =>
        rw [hm] at h
        rw [ih (fun u hu => hf u (List.mem_cons_of_mem _ hu)) hm]
        exact h

theorem mapList_total {α β : Type} {f : α → Out β} {xs : List α} (h : ∀ x ∈ xs, ∃ y, f x = .ok y) : ∃ ys, Out.mapList f xs = .ok ys := by
  induction xs with
  | nil => exact ⟨[], rfl⟩
  | cons x xs ih =>
    obtain ⟨y, hy⟩ := h x (by simp)
    obtain ⟨ys, hys⟩ := ih fun u hu => h u (List.mem_cons_of_mem _ hu)
    exact ⟨y :: ys, by simp [Out.mapList, hy, hys, Out.bind]⟩

theorem createTrees_mono {chart : Chart A} {fuel fuel' : Nat} (h : fuel ≤ fuel') : ∀ {s : EState A} {ts : List (ParseTree A)},
    createTrees chart fuel s = .ok ts → createTrees chart fuel' s = .ok ts := by
  induction fuel generalizing fuel' with
  | zero => intro s ts hr; simp [createTrees] at hr
  | succ fuel ih =>
    intro s ts hr
    obtain ⟨f, rfl⟩ : ∃ f, fuel' = f + 1 := ⟨fuel' - 1, by omega⟩
    rw [createTrees] at hr ⊢
    cases hc : s.rule.cons with
    | nil => rw [hc] at hr; exact hr
    | cons x xs =>
      rw [hc] at hr
      simp only at hr ⊢
      split
      next ht => rw [if_pos ht] at hr; exact hr
      next ht =>
        rw [if_neg ht] at hr
        cases hfs : findSeqs chart s xs.length s.fin with
        | err e => rw [hfs] at hr; simp [Out.bind] at hr
        | oof => rw [hfs] at hr; simp [Out.bind] at hr
        | ok seqs =>
          rw [hfs] at hr
          simp only [Out.bind] at hr ⊢
          refine flatMapList_mono ?_ hr
          intro seq _ zs hz
          cases hm : Out.mapList (createTrees chart fuel) seq with
          | err e => rw [hm] at hz; simp at hz
          | oof => rw [hm] at hz; simp at hz
          | ok trees =>
            rw [hm] at hz
            rw [mapList_mono (fun t _ zs hz => ih (by omega) hz) hm]
            exact hz

/-- A common fuel for a list. -/
theorem common_fuel {α : Type} {P : Nat → α → Prop} (hmono : ∀ {a b : Nat} {x : α}, a ≤ b → P a x → P b x) {xs : List α}
    (h : ∀ x ∈ xs, ∃ n, P n x) : ∃ n, ∀ x ∈ xs, P n x := by
  induction xs with
  | nil => exact ⟨0, by simp⟩
  | cons x xs ih =>
    obtain ⟨a, ha⟩ := h x (by simp)
    obtain ⟨b, hb⟩ := ih fun u hu => h u (List.mem_cons_of_mem _ hu)
    refine ⟨max a b, ?_⟩
    intro u hu
    rcases List.mem_cons.1 hu with rfl | hu
    · exact hmono (by omega) ha
    · exact hmono (by omega) (hb u hu)

theorem StateChain.le {E : Oracles} {g : Grammar A} {text : Str} {chart : Chart A} (ok : ChartOk E g text) (f : Finished E g text chart)
    {cs : List Constituent} {i k : Nat} {seq : List (EState A)} (h : StateChain chart cs i k seq) : i + cs.length ≤ k := by
  induction h with
  | nil => simp
  | cons h1 h2 h3 _ _ _ ih =>
    have := complete_moved ok f h1 h2
    simp only [List.length_cons]; omega

/-- The states of a chain. -/
theorem StateChain.mem {E : Oracles} {g : Grammar A} {text : Str} {chart : Chart A} (ok : ChartOk E g text) (f : Finished E g text chart)
    {cs : List Constituent} {i k : Nat} {seq : List (EState A)} (h : StateChain chart cs i k seq) :
    ∀ t ∈ seq, t ∈ chart.states t.fin ∧ t.isComplete = true ∧ (t.fin - t.start) + cs.length ≤ (k - i) + 1 ∧
      ∃ c ∈ cs, t.rule.ante.syn = c.syn := by
  induction h with
  | nil => simp
  | @cons c cs i j k s rest h1 h2 h3 h4 h5 h6 ih =>
    have hm := complete_moved ok f h1 h2
    have hle := h6.le ok f
    intro t ht
    rcases List.mem_cons.1 ht with rfl | ht
    · exact ⟨by rw [h4]; exact h1, h2, by simp only [List.length_cons]; omega, c, by simp, h5⟩
    · obtain ⟨a1, a2, a3, c', hc', a4⟩ := ih t ht
      exact ⟨a1, a2, by simp only [List.length_cons]; omega, c', by simp [hc'], a4⟩

/-- Without cycles of unit rules the trees of each state are made at some depth. -/
theorem createTrees_total {E : Oracles} {rules : List (GRule A)} (ok : RulesOk rules) {text : Str} (hl : LowerOk E text) {chart : Chart A}
    (f : Finished E (startedGrammar E rules) text chart) (wf : WellFounded (UnitStep rules)) (span : Nat) :
    ∀ {s : EState A}, s ∈ chart.states s.fin → s.isComplete = true → s.fin - s.start ≤ span →
    (s.rule.ante.pos = .relation → s.rule.ante.predicate ≠ cDelta ∧ s.rule.ante.predicate ≠ cGamma) →
    ∃ fuel ts, createTrees chart fuel s = .ok ts := by
  have cok := chartOk ok hl
  -- one level
  have level : ∀ {s : EState A}, s ∈ chart.states s.fin → s.isComplete = true →
      (s.rule.ante.pos = .relation → s.rule.ante.predicate ≠ cDelta ∧ s.rule.ante.predicate ≠ cGamma) →
      (∀ t : EState A, t ∈ chart.states t.fin → t.isComplete = true →
        (t.rule.ante.pos = .relation → t.rule.ante.predicate ≠ cDelta ∧ t.rule.ante.predicate ≠ cGamma) →
        (t.fin - t.start < s.fin - s.start ∨
          (t.fin - t.start ≤ s.fin - s.start ∧ UnitStep rules t.rule.ante.syn s.rule.ante.syn)) →
        ∃ fuel ts, createTrees chart fuel t = .ok ts) →
      ∃ fuel ts, createTrees chart fuel s = .ok ts := by
    intro s hs hcomp hres ih
    obtain ⟨hit, _⟩ := f.items _ s hs
    have v := hit.valid cok
    rcases v.kind with hb | ⟨r, c0, _, _, hsc⟩
    · obtain ⟨hrel, hterm⟩ := base_relation ok hb
      obtain ⟨hnd, hng⟩ := hres hrel
      have hu : Usable rules s.rule := by
        rcases hb with hb | hb
        · rw [hb] at hng; exact absurd rfl hng
        · rcases isRule_started hb with h | ⟨n, hn⟩
          · exact h
          · rw [hn] at hnd; exact absurd rfl hnd
      obtain ⟨r0, h0, _, hm, _⟩ := hu.cons_mem
      cases hcons : s.rule.cons with
      | nil => exact absurd hcons v.cons_ne
      | cons x xs =>
        obtain ⟨seqs, hfs⟩ := findSeqs_total f xs.length (parent := s) (fin := s.fin) (by rw [hcons]; simp) (.inr (f.key hit hcomp))
        have hseqs := findSeqs_mem cok f xs.length (by rw [hcons]; simp) hfs
        rw [List.take_of_length_le (by rw [hcons]; simp)] at hseqs
        -- a fuel for all sequences
        obtain ⟨n, hn⟩ := common_fuel (P := fun n (seq : List (EState A)) => ∃ trees, Out.mapList (createTrees chart n) seq = .ok trees)
          (by
            rintro a b seq hab ⟨trees, ht⟩
            exact ⟨trees, mapList_mono (fun t _ zs hz => createTrees_mono hab hz) ht⟩)
          (xs := seqs) (by
            intro seq hseq
            have hch := (hseqs seq).1 hseq
            have hmem := hch.mem cok f
            have hlen := hch.le cok f
            obtain ⟨n, hn⟩ := common_fuel (P := fun n t => ∃ ts, createTrees chart n t = .ok ts)
              (by rintro a b t hab ⟨ts, ht⟩; exact ⟨ts, createTrees_mono hab ht⟩) (xs := seq) (by
                intro t ht
                obtain ⟨a1, a2, a3, c, hc, a4⟩ := hmem t ht
                refine ih t a1 a2 ?_ ?_
                · intro hp
                  simp only [Constituent.syn, Prod.mk.injEq] at a4
                  rw [a4.1]
                  exact ok.reserved r0 h0 c (hm c hc) (by rw [← a4.2.2]; exact hp)
                · rw [hcons] at a3 hc hlen
                  cases xs with
                  | nil =>
                    simp only [List.mem_singleton] at hc
                    subst hc
                    refine .inr ⟨by simp only [List.length_singleton] at a3; omega, s.rule, c, hu, hcons, a4.symm, rfl⟩
                  | cons y ys => simp only [List.length_cons] at a3 hlen; left; omega)
            exact ⟨n, mapList_total hn⟩)
        have htot : ∃ ts, Out.flatMapList (fun seq => (Out.mapList (createTrees chart n) seq).bind fun trees =>
            .ok ((product trees).map fun children => ParseTree.node s.rule.ante.predicate children [] s.rule)) seqs = .ok ts := by
          refine flatMapList_total ?_
          intro seq hseq
          obtain ⟨trees, ht⟩ := hn seq hseq
          exact ⟨_, by rw [ht]; rfl⟩
        obtain ⟨ts, hts⟩ := htot
        refine ⟨n + 1, ts, ?_⟩
        rw [createTrees, hcons]
        simp only
        rw [if_neg (hterm x (by simp [hcons])), hfs]
        exact hts
    · obtain ⟨w, hw, _⟩ := scanned_token hsc rfl v.fin_le
      refine ⟨1, [.node s.rule.ante.predicate [] w s.rule], ?_⟩
      rw [createTrees, hw]
      simp
  induction span with
  | zero =>
    intro s hs hcomp hsp _
    have := complete_moved cok f hs hcomp
    omega
  | succ span ihspan =>
    intro s hs hcomp hsp hres
    suffices H : ∀ y, ∀ s : EState A, s.rule.ante.syn = y → s ∈ chart.states s.fin → s.isComplete = true → s.fin - s.start ≤ span + 1 →
        (s.rule.ante.pos = .relation → s.rule.ante.predicate ≠ cDelta ∧ s.rule.ante.predicate ≠ cGamma) →
        ∃ fuel ts, createTrees chart fuel s = .ok ts from H _ s rfl hs hcomp hsp hres
    intro y
    induction y using wf.induction with
    | _ y ihy =>
      intro s hy hs hcomp hsp hres
      refine level hs hcomp hres ?_
      rintro t ht htc htr (hlt | ⟨hle, hst⟩)
      · exact ihspan ht htc (by omega) htr
      · exact ihy _ (by rw [← hy]; exact hst) t rfl ht htc (by omega) htr

theorem extractRoots_total {E : Oracles} {rules : List (GRule A)} (ok : RulesOk rules) {text : Str} (hl : LowerOk E text) {chart : Chart A}
    (f : Finished E (startedGrammar E rules) text chart) (wf : WellFounded (UnitStep rules)) :
    ∃ fuel, ∀ fuel', fuel ≤ fuel' → ∃ roots, extractRoots E fuel' chart text.length = .ok roots := by
  have cok := chartOk ok hl
  cases hcm : chart.completed text.length with
  | none => exact ⟨0, fun fuel' _ => ⟨[], by simp [extractRoots, hcm]⟩⟩
  | some l =>
    suffices H : ∃ n ts, createTrees chart n (completeGamma E text.length) = .ok ts by
      obtain ⟨n, ts, hn⟩ := H
      refine ⟨n, ?_⟩
      intro fuel' hle
      have hmono := createTrees_mono hle hn
      cases hr : extractRoots E fuel' chart text.length with
      | ok roots => exact ⟨roots, rfl⟩
      | err e => exact absurd hr (extractRoots_no_err ok hl f fuel' e)
      | oof =>
        simp only [extractRoots, hcm, hmono, Out.bind] at hr
        exact absurd hr (by
          clear hr hmono hn
          induction ts with
          | nil => simp [Out.mapList]
          | cons t ts ih =>
            simp only [Out.mapList]
            have hst : stripRoot t ≠ .oof := by
              simp only [stripRoot]
              split
              · simp
              · split <;> simp
            cases h1 : stripRoot t with
            | oof => exact absurd h1 hst
            | err e => simp [Out.bind]
            | ok x =>
              simp only [Out.bind]
              cases h2 : Out.mapList stripRoot ts with
              | oof => exact absurd h2 ih
              | err e => simp
              | ok xs => simp)
    -- both levels above the sentence
    have up : ∀ {s : EState A} {c : Constituent}, s.rule.cons = [c] → c.args.head? ≠ some cTerminal →
        (s.fin = 0 ∨ chart.completed s.fin ≠ none) →
        (∀ t : EState A, t ∈ chart.states t.fin → t.isComplete = true → t.rule.ante.syn = c.syn → ∃ n ts, createTrees chart n t = .ok ts) →
        ∃ n ts, createTrees chart n s = .ok ts := by
      intro s c hc hterm hk hch
      obtain ⟨seqs, hfs⟩ := findSeqs_total f 0 (parent := s) (fin := s.fin) (by rw [hc]; simp) hk
      have hseqs := findSeqs_mem cok f 0 (by rw [hc]; simp) hfs
      rw [List.take_of_length_le (by rw [hc]; simp)] at hseqs
      obtain ⟨n, hn⟩ := common_fuel (P := fun n (seq : List (EState A)) => ∃ trees, Out.mapList (createTrees chart n) seq = .ok trees)
        (by
          rintro a b seq hab ⟨trees, ht⟩
          exact ⟨trees, mapList_mono (fun t _ zs hz => createTrees_mono hab hz) ht⟩)
        (xs := seqs) (by
          intro seq hseq
          have hchn := (hseqs seq).1 hseq
          rw [hc] at hchn
          obtain ⟨t, rfl, h1, h2, h3, h4, h5⟩ := chain_single hchn
          obtain ⟨n, ts, hts⟩ := hch t (by rw [h4]; exact h1) h2 h5
          exact ⟨n, [ts], by simp [Out.mapList, hts, Out.bind]⟩)
      obtain ⟨ts, hts⟩ : ∃ ts, Out.flatMapList (fun seq => (Out.mapList (createTrees chart n) seq).bind fun trees =>
          .ok ((product trees).map fun children => ParseTree.node s.rule.ante.predicate children [] s.rule)) seqs = .ok ts := by
        refine flatMapList_total ?_
        intro seq hseq
        obtain ⟨trees, ht⟩ := hn seq hseq
        exact ⟨_, by rw [ht]; rfl⟩
      refine ⟨n + 1, ts, ?_⟩
      rw [createTrees, hc]
      simp only
      rw [if_neg hterm, List.length_nil, hfs]
      exact hts
    refine up (c := deltaC) rfl (by simp [deltaC, cTerminal]) (.inr (by show chart.completed text.length ≠ none; rw [hcm]; simp)) ?_
    intro t ht htc hta
    obtain ⟨hb, m, hm⟩ := delta_state ok hl f ht hta
    have hterm := (base_relation ok hb).2
    rw [hm] at hterm
    refine up (s := t) (c := _) (by rw [hm]; rfl) (hterm _ (by simp [deltaRule, GRule.new])) (.inr (f.key (f.items _ _ ht).1 htc)) ?_
    intro u hu huc hua
    refine createTrees_total ok hl f wf (u.fin - u.start) hu huc (Nat.le_refl _) ?_
    intro _
    simp only [Constituent.syn, Prod.mk.injEq] at hua
    rw [hua.1]
    exact ⟨by simp [cRoot, cDelta], by simp [cRoot, cGamma]⟩

/-! ## Specification: the longest consumed prefix -/

/-- Leftmost derivations that read the text: the constituents still expected, and the position. -/
inductive Leftmost (E : Oracles) (rules : List (GRule A)) (text : Str) : List Constituent → Nat → Prop
  | start {r} : Usable rules r → r.ante.predicate = cRoot → Leftmost E rules text [r.ante] 0
  | expand {c cs i r} : Leftmost E rules text (c :: cs) i → Usable rules r → r.ante.equals c = true → Leftmost E rules text (r.cons ++ cs) i
  | token {c cs i j form} : Leftmost E rules text (c :: cs) i → Token E text c i j form → Leftmost E rules text cs j

/-- The text up to `k` can be read by a leftmost derivation whose last step reads a token (or nothing is read). -/
def Consumed (E : Oracles) (rules : List (GRule A)) (text : Str) (k : Nat) : Prop :=
  k = 0 ∨ ∃ c cs i form, Leftmost E rules text (c :: cs) i ∧ Token E text c i k form

/-- A constituent of a rule. -/
def Occurs (rules : List (GRule A)) (c : Constituent) : Prop := ∃ r ∈ rules, c = r.ante ∨ c ∈ r.cons

/-- A predicate has one number of arguments, and words and regular expressions are not named like the antecedents of rules with the same
number of arguments. -/
structure NamesOk (rules : List (GRule A)) : Prop where
  arity : ∀ x y, Occurs rules x → Occurs rules y → x.predicate = y.predicate → x.pos = y.pos → x.args.length = y.args.length
  words : ∀ c, Occurs rules c → c.pos ≠ .relation →
    (∀ r ∈ rules, ¬ (r.ante.predicate = c.predicate ∧ r.ante.args.length = c.args.length)) ∧ ¬ (c.predicate = cDelta ∧ c.args.length = 1)

theorem Usable.occurs {rules : List (GRule A)} {r : GRule A} (h : Usable rules r) : Occurs rules r.ante ∧ ∀ c ∈ r.cons, Occurs rules c := by
  obtain ⟨r0, h0, ha, hm, _⟩ := h.cons_mem
  exact ⟨⟨r0, h0, .inl ha⟩, fun c hc => ⟨r0, h0, .inr (hm c hc)⟩⟩

theorem derives_leftmost {E : Oracles} {rules : List (GRule A)} {text : Str} {cs : List Constituent} {i k : Nat} {ds : List (DTree A)}
    (h : Derives E rules text cs i k ds) : ∀ {rest : List Constituent}, Leftmost E rules text (cs ++ rest) i → Leftmost E rules text rest k := by
  induction h with
  | nil i => intro rest h; exact h
  | leaf ht _ ih => intro rest h; exact ih (.token h ht)
  | node hu he _ _ ih1 ih2 =>
    intro rest h
    exact ih2 (ih1 (.expand h hu he))

theorem token_syn {E : Oracles} {text : Str} {c c' : Constituent} {i j : Nat} {form : Str} (h : Token E text c i j form)
    (hs : c.predicate = c'.predicate) (hp : c.pos = c'.pos) : Token E text c' i j form := by
  simpa only [Token, hs, hp] using h

/-- What the items mean. -/
theorem Item.meaning {E : Oracles} {rules : List (GRule A)} (ok : RulesOk rules) {text : Str} (hl : LowerOk E text) (ha : NamesOk rules)
    {s : EState A} (h : Item E (startedGrammar E rules) text s) :
    (Usable rules s.rule ∧ (∃ ds, Derives E rules text (s.rule.cons.take (s.dot - 1)) s.start s.fin ds) ∧
      ∃ rest, Leftmost E rules text (s.rule.cons.drop (s.dot - 1) ++ rest) s.fin) ∨
    ((∃ m, s.rule = deltaRule E m) ∧ (s.dot = 1 → s.fin = 0)) ∨
    (s.rule = gammaRule E ∧ (s.dot = 1 → s.fin = 0)) ∨
    (∃ c cs form, Leftmost E rules text (c :: cs) s.start ∧ Token E text c s.start s.fin form ∧ s.rule.ante.syn = c.syn ∧
      c.pos ≠ .relation ∧ Occurs rules c ∧ s.isComplete = true) := by
  have cok := chartOk ok hl
  induction h with
  | init => exact .inr (.inr (.inl ⟨rfl, fun _ => rfl⟩))
  | @predict s c r hi hc hx hr ih =>
    obtain ⟨hdot, hxc⟩ := List.getElem?_eq_some_iff.1 hx
    have hd1 := (hi.valid cok).dot_pos
    have hcm : c ∈ s.rule.cons := List.mem_of_getElem? hx
    rcases mem_started.1 hr with ⟨hu, hp, hn⟩ | ⟨hp, hn, m, _, rfl⟩
    · refine .inl ⟨hu, ⟨[], .nil _⟩, ?_⟩
      obtain ⟨r0, h0, ha0, _⟩ := hu.cons_mem
      have hrel := ok.relation r0 h0
      rcases ih with ⟨hus, _, rest, hleft⟩ | ⟨⟨m, hm⟩, h1⟩ | ⟨hm, _⟩ | ⟨_, _, _, _, _, _, _, _, hcomp⟩
      · rw [List.drop_eq_getElem_cons hdot, hxc] at hleft
        by_cases hpos : c.pos = .relation
        · refine ⟨s.rule.cons.drop (s.dot - 1 + 1) ++ rest, ?_⟩
          refine .expand (c := c) hleft hu (Constituent.equals_iff.2 ?_)
          have hrel' : r.ante.pos = .relation := by rw [ha0]; exact hrel
          simp only [Constituent.syn, hp, hn, hpos, hrel']
        · exact absurd ⟨by rw [← ha0]; exact hp, by rw [← ha0]; exact hn⟩ ((ha.words c (hus.occurs.2 c hcm) hpos).1 r0 h0)
      · rw [hm] at hcm hdot
        simp only [deltaRule, GRule.new, List.length_singleton, List.mem_singleton] at hdot hcm
        refine ⟨[], ?_⟩
        show Leftmost E rules text (r.cons ++ []) s.fin
        rw [h1 (by omega)]
        exact .expand (.start hu (by rw [hp, hcm])) hu (Constituent.equals_iff.2 rfl)
      · rw [hm] at hcm
        simp only [gammaRule, GRule.new, List.mem_singleton] at hcm
        rw [hcm, ha0] at hp
        exact absurd hp (ok.not_delta r0 h0)
      · rw [hc] at hcomp; simp at hcomp
    · refine .inr (.inl ⟨⟨m, rfl⟩, fun _ => ?_⟩)
      rcases ih with ⟨hus, _, rest, hleft⟩ | ⟨⟨m, hm⟩, h1⟩ | ⟨hm, h1⟩ | ⟨_, _, _, _, _, _, _, _, hcomp⟩
      · by_cases hpos : c.pos = .relation
        · obtain ⟨r0, h0, _, hmm, _⟩ := hus.cons_mem
          exact absurd hp (ok.reserved r0 h0 c (hmm c hcm) hpos).1
        · exact absurd ⟨hp, hn⟩ (ha.words c (hus.occurs.2 c hcm) hpos).2
      · rw [hm] at hdot
        simp only [deltaRule, GRule.new, List.length_singleton] at hdot
        exact h1 (by omega)
      · rw [hm] at hdot
        simp only [gammaRule, GRule.new, List.length_singleton] at hdot
        exact h1 (by omega)
      · rw [hc] at hcomp; simp at hcomp
  | @scan s c t hi hc hx hlt ht ih =>
    obtain ⟨hdot, hxc⟩ := List.getElem?_eq_some_iff.1 hx
    have hcm : c ∈ s.rule.cons := List.mem_of_getElem? hx
    obtain ⟨h1, h2, h3, h4⟩ := scanStates_start ht
    have hpos := scanStates_pos ht
    have hv := (Item.scan hi hc hx hlt ht).valid cok
    have htok := scanned_token (c := c) (by rw [h1]; exact ht) h4 hv.fin_le
    obtain ⟨w, _, _, htok, _⟩ := htok
    refine .inr (.inr (.inr ?_))
    rcases ih with ⟨hus, _, rest, hleft⟩ | ⟨⟨m, hm⟩, _⟩ | ⟨hm, _⟩ | ⟨_, _, _, _, _, _, _, _, hcomp⟩
    · rw [List.drop_eq_getElem_cons hdot, hxc] at hleft
      refine ⟨c, _, w, by rw [h1]; exact hleft, htok, h4, hpos, hus.occurs.2 c hcm, ?_⟩
      simp [EState.isComplete, h2, h3]
    · rw [hm] at hcm
      simp only [deltaRule, GRule.new, List.mem_singleton] at hcm
      rw [hcm] at hpos; simp at hpos
    · rw [hm] at hcm
      simp only [gammaRule, GRule.new, List.mem_singleton] at hcm
      rw [hcm] at hpos; simp [deltaC] at hpos
    · rw [hc] at hcomp; simp at hcomp
  | @complete s c a hs hc hi hf hadv ihs ihc =>
    obtain ⟨x, hx, hle, hpx, hqx, rfl⟩ := advance_eq hadv
    have hd1 := (hi.valid cok).dot_pos
    obtain ⟨hdot, hxc⟩ := List.getElem?_eq_some_iff.1 hx
    have hcm : x ∈ c.rule.cons := List.mem_of_getElem? hx
    rcases ihc with ⟨hus, ⟨ds, hds⟩, rest, hleft⟩ | ⟨⟨m, hm⟩, _⟩ | ⟨hm, _⟩ | ⟨_, _, _, _, _, _, _, _, hcomp⟩
    · refine .inl ⟨hus, ?_⟩
      have hxo := hus.occurs.2 x hcm
      -- the completed item derives the constituent
      have hder : ∃ d, Derives E rules text [x] s.start s.fin [d] := by
        have notrel : ∀ {p : Str}, s.rule.ante.predicate = p → s.rule.ante.pos = .relation → p ≠ cDelta ∧ p ≠ cGamma := by
          intro p h1 h2
          obtain ⟨r0, h0, _, hmm, _⟩ := hus.cons_mem
          rw [← h1, ← hpx]
          exact ok.reserved r0 h0 x (hmm x hcm) (by rw [hqx]; exact h2)
        rcases ihs with ⟨hus', ⟨ds', hds'⟩, _⟩ | ⟨⟨m, hm⟩, _⟩ | ⟨hm, _⟩ | ⟨c', cs', form, _, htok, hsyn, _, hocc, _⟩
        · have : s.rule.cons.take (s.dot - 1) = s.rule.cons := by
            apply List.take_of_length_le
            simp only [EState.isComplete, decide_eq_true_eq] at hc
            omega
          rw [this] at hds'
          refine ⟨.node s.rule ds', .node hus' (Constituent.equals_iff.2 ?_) hds' (.nil _)⟩
          simp only [Constituent.syn, hpx, hqx, ha.arity x s.rule.ante hxo hus'.occurs.1 hpx hqx]
        · exact absurd rfl (notrel (p := cDelta) (by rw [hm]; rfl) (by rw [hm]; rfl)).1
        · exact absurd rfl (notrel (p := cGamma) (by rw [hm]; rfl) (by rw [hm]; rfl)).2
        · simp only [Constituent.syn, Prod.mk.injEq] at hsyn
          exact ⟨.leaf x form, .leaf (token_syn htok (by rw [hpx, hsyn.1]) (by rw [hqx, hsyn.2.2])) (.nil _)⟩
      obtain ⟨d, hd⟩ := hder
      refine ⟨⟨ds ++ [d], ?_⟩, rest, ?_⟩
      · show Derives E rules text (c.rule.cons.take (c.dot + 1 - 1)) c.start s.fin _
        have : c.rule.cons.take (c.dot + 1 - 1) = c.rule.cons.take (c.dot - 1) ++ [x] := by
          have := take_add_one_of hx
          rw [Nat.sub_add_cancel hd1] at this
          simpa using this
        rw [this]
        rw [hf] at hds
        exact derives_append hds hd
      · show Leftmost E rules text (c.rule.cons.drop (c.dot + 1 - 1) ++ rest) s.fin
        rw [List.drop_eq_getElem_cons hdot, hxc, hf] at hleft
        have := derives_leftmost hd (rest := c.rule.cons.drop (c.dot - 1 + 1) ++ rest) (by simpa using hleft)
        rw [Nat.sub_add_cancel hd1] at this
        simpa using this
    · refine .inr (.inl ⟨⟨m, hm⟩, ?_⟩)
      intro h; simp only at h; omega
    · refine .inr (.inr (.inl ⟨hm, ?_⟩))
      intro h; simp only at h; omega
    · simp only [EState.isComplete, decide_eq_true_eq] at hcomp
      omega

/-- The ends of items are consumed. -/
theorem Item.consumed {E : Oracles} {rules : List (GRule A)} (ok : RulesOk rules) {text : Str} (hl : LowerOk E text) (ha : NamesOk rules)
    {s : EState A} (h : Item E (startedGrammar E rules) text s) : Consumed E rules text s.fin := by
  induction h with
  | init => exact .inl rfl
  | predict _ _ _ _ ih => exact ih
  | @scan s c t hi hc hx hlt ht ih =>
    rcases (Item.scan hi hc hx hlt ht).meaning ok hl ha with ⟨hu, _⟩ | ⟨⟨m, hm⟩, _⟩ | ⟨hm, _⟩ | ⟨c', cs', form, h1, h2, _⟩
    · obtain ⟨r0, h0, h1, _⟩ := hu.cons_mem
      exact absurd (by rw [h1]; exact ok.relation r0 h0) (scanStates_relation ht)
    · exact absurd (by rw [hm]; rfl) (scanStates_relation ht)
    · exact absurd (by rw [hm]; rfl) (scanStates_relation ht)
    · exact .inr ⟨c', cs', _, form, h1, h2⟩
  | @complete s c a hs hc hi hf hadv ihs ihc =>
    obtain ⟨_, _, _, _, _, rfl⟩ := advance_eq hadv
    exact ihs

/-- Some item waits at a position; what is expected after it. -/
inductive Waiting (E : Oracles) (g : Grammar A) (text : Str) : Nat → Str × Nat × PosType → List Constituent → Prop
  | root {s x} : Item E g text s → s.isComplete = false → s.rule.cons[s.dot - 1]? = some x → Waiting E g text s.fin x.syn []
  | inner {s x rest} : Item E g text s → s.isComplete = false → s.rule.cons[s.dot - 1]? = some x →
      Waiting E g text s.start s.rule.ante.syn rest → Waiting E g text s.fin x.syn (s.rule.cons.drop s.dot ++ rest)

theorem Waiting.item {E : Oracles} {g : Grammar A} {text : Str} {i : Nat} {y : Str × Nat × PosType} {rest : List Constituent}
    (h : Waiting E g text i y rest) : ∃ s x, Item E g text s ∧ s.isComplete = false ∧ s.rule.cons[s.dot - 1]? = some x ∧ x.syn = y ∧ s.fin = i := by
  cases h with
  | root h1 h2 h3 => exact ⟨_, _, h1, h2, h3, rfl, rfl⟩
  | inner h1 h2 h3 _ => exact ⟨_, _, h1, h2, h3, rfl, rfl⟩

/-- After completion the rest is expected. -/
theorem Waiting.pop {E : Oracles} {g : Grammar A} {text : Str} (ok : ChartOk E g text) {i : Nat} {y : Str × Nat × PosType}
    {rest : List Constituent} (h : Waiting E g text i y rest) : ∀ {t : EState A}, Item E g text t → t.isComplete = true → t.start = i →
    t.rule.ante.syn = y → rest = [] ∨ ∃ c cs, rest = c :: cs ∧ Waiting E g text t.fin c.syn cs := by
  induction h with
  | root => intros; exact .inl rfl
  | @inner s x rest hi hc hx hw ih =>
    intro t ht htc hts hta
    obtain ⟨hdot, _⟩ := List.getElem?_eq_some_iff.1 hx
    have hd1 := (hi.valid ok).dot_pos
    simp only [Constituent.syn, Prod.mk.injEq] at hta
    have hadv : advance t s = some ⟨s.rule, s.dot + 1, s.start, t.fin⟩ := by
      simp only [advance]
      rw [if_neg (by omega), hx]
      simp only
      rw [if_neg (by rw [hta.1]; simp), if_neg (by rw [hta.2.2]; simp)]
    have hitem := Item.complete ht htc hi hts.symm hadv
    cases hd : s.rule.cons.drop s.dot with
    | nil =>
      have hlen : s.rule.cons.length ≤ s.dot := List.drop_eq_nil_iff.1 hd
      have := ih hitem (by simp [EState.isComplete]; omega) rfl rfl
      simpa using this
    | cons c cs =>
      right
      have hlt : s.dot < s.rule.cons.length := by
        rcases Nat.lt_or_ge s.dot s.rule.cons.length with h | h
        · exact h
        · rw [List.drop_eq_nil_iff.2 h] at hd; simp at hd
      rw [List.drop_eq_getElem_cons hlt] at hd
      simp only [List.cons.injEq] at hd
      refine ⟨c, cs ++ rest, rfl, ?_⟩
      rw [← hd.2]
      exact Waiting.inner (s := ⟨s.rule, s.dot + 1, s.start, t.fin⟩) hitem (by simp [EState.isComplete]; omega)
        (by simp only [Nat.add_sub_cancel]; rw [List.getElem?_eq_getElem hlt, hd.1]) hw

/-- What a leftmost derivation expects is waited for. -/
theorem leftmost_waiting {E : Oracles} {rules : List (GRule A)} (ok : RulesOk rules) {text : Str} (hl : LowerOk E text)
    {cs : List Constituent} {i : Nat} (h : Leftmost E rules text cs i) :
    (∀ c ∈ cs, c.pos = .word → c.predicate ≠ []) ∧
    (cs = [] ∨ ∃ c cs', cs = c :: cs' ∧ Waiting E (startedGrammar E rules) text i c.syn cs') := by
  have cok := chartOk ok hl
  induction h with
  | @start r hu hp =>
    obtain ⟨r0, h0, ha0, _⟩ := hu.cons_mem
    have hrel := ok.relation r0 h0
    refine ⟨by intro c hc hw; simp only [List.mem_singleton] at hc; subst hc; rw [ha0, hrel] at hw; simp at hw, .inr ⟨r.ante, [], rfl, ?_⟩⟩
    have hcount := mem_findArgumentCounts (findRules_new.2 ⟨hu, hp, rfl⟩)
    have hd : Item E (startedGrammar E rules) text ⟨deltaRule E r.ante.args.length, 1, 0, 0⟩ :=
      .predict (s := incompleteGamma E) (c := deltaC) .init (by simp [EState.isComplete, incompleteGamma, gammaRule, GRule.new]) rfl
        (mem_started.2 (.inr ⟨rfl, rfl, _, hcount, rfl⟩))
    have := Waiting.root (x := ⟨cRoot, (List.range r.ante.args.length).map (fun j => 'P' :: showNat (j + 1)), .relation, false, false⟩) hd
      (by simp [EState.isComplete, deltaRule, GRule.new]) rfl
    have hrel' : r.ante.pos = .relation := by rw [ha0]; exact hrel
    simpa [Constituent.syn, hp, hrel'] using this
  | @expand c cs i r _ hu he ih =>
    obtain ⟨r0, h0, ha0, hm, hv⟩ := hu.cons_mem
    obtain ⟨ihw, ih⟩ := ih
    refine ⟨?_, ?_⟩
    · intro x hx hw
      rcases List.mem_append.1 hx with hx | hx
      · exact ok.word_ne r0 h0 x (hm x hx) hw
      · exact ihw x (List.mem_cons_of_mem _ hx) hw
    · right
      rcases ih with h | ⟨c', cs', h, hw⟩
      · simp at h
      · simp only [List.cons.injEq] at h
        obtain ⟨rfl, rfl⟩ := h
        obtain ⟨s, x, hs, hc, hx, hxs, rfl⟩ := hw.item
        have hsyn := (Constituent.equals_iff.1 he).trans hxs.symm
        have hsyn' := hsyn
        simp only [Constituent.syn, Prod.mk.injEq] at hsyn
        have hi := Item.predict hs hc hx (mem_started.2 (.inl ⟨hu, hsyn.1, hsyn.2.1⟩))
        cases hcons : r.cons with
        | nil => exact absurd hcons (ok.cons_ne r0 h0 r hv)
        | cons y ys =>
          refine ⟨y, ys ++ cs, rfl, ?_⟩
          have := Waiting.inner (x := y) hi (by simp [EState.isComplete, hcons]) (by simp [hcons]) (rest := cs)
            (by show Waiting E (startedGrammar E rules) text s.fin r.ante.syn cs; rw [hsyn', hxs]; exact hw)
          simpa [hcons] using this
  | @token c cs i j form _ ht ih =>
    obtain ⟨ihw, ih⟩ := ih
    refine ⟨fun x hx => ihw x (List.mem_cons_of_mem _ hx), ?_⟩
    rcases ih with h | ⟨c', cs', h, hw⟩
    · simp at h
    · simp only [List.cons.injEq] at h
      obtain ⟨rfl, rfl⟩ := h
      obtain ⟨s, x, hs, hc, hx, hxs, rfl⟩ := hw.item
      have hxs' := hxs
      simp only [Constituent.syn, Prod.mk.injEq] at hxs'
      have htx := token_syn ht hxs'.1.symm hxs'.2.2.symm
      have hne : form ≠ [] := by
        obtain ⟨_, _, ⟨hp, rfl, _⟩ | ⟨_, h, _⟩⟩ := ht
        · exact ihw c (by simp) hp
        · exact h
      have hlen := List.length_pos_iff.2 hne
      obtain ⟨t, htm, _, htf, hts⟩ := readWord_inside (A := A) htx
      have hi := Item.scan hs hc hx (by obtain ⟨h1, h2, _⟩ := ht; omega) htm
      obtain ⟨_, h2, h3, h4⟩ := scanStates_start htm
      have := hw.pop cok hi (by simp [EState.isComplete, h2, h3]) hts (h4.trans hxs)
      rw [htf] at this
      exact this

/-- What is consumed is the end of a completed item. -/
theorem consumed_item {E : Oracles} {rules : List (GRule A)} (ok : RulesOk rules) {text : Str} (hl : LowerOk E text) {k : Nat}
    (h : Consumed E rules text k) : k = 0 ∨ ∃ t, Item E (startedGrammar E rules) text t ∧ t.isComplete = true ∧ t.fin = k := by
  rcases h with h | ⟨c, cs, i, form, hleft, htok⟩
  · exact .inl h
  · right
    obtain ⟨hne, h | ⟨c', cs', h, hw⟩⟩ := leftmost_waiting ok hl hleft
    · simp at h
    · simp only [List.cons.injEq] at h
      obtain ⟨rfl, rfl⟩ := h
      obtain ⟨s, x, hs, hc, hx, hxs, rfl⟩ := hw.item
      simp only [Constituent.syn, Prod.mk.injEq] at hxs
      have htx := token_syn htok hxs.1.symm hxs.2.2.symm
      have hne : form ≠ [] := by
        obtain ⟨_, _, ⟨hp, rfl, _⟩ | ⟨_, h, _⟩⟩ := htok
        · exact hne c (by simp) hp
        · exact h
      have hlen := List.length_pos_iff.2 hne
      obtain ⟨t, htm, _, htf, hts⟩ := readWord_inside (A := A) htx
      obtain ⟨_, h2, h3, _⟩ := scanStates_start htm
      exact ⟨t, .scan hs hc hx (by obtain ⟨h1, h2, _⟩ := htok; omega) htm, by simp [EState.isComplete, h2, h3], htf⟩

/-! ## The last understood position -/

theorem lastUnderstood_list (l : List (EState A)) : ∀ K : Nat, ∃ K' : Nat,
    l.foldl (fun (last : Int) state => if state.isComplete then (if (state.fin : Int) > last then (state.fin : Int) - 1 else last) else last)
      ((K : Int) - 1) = (K' : Int) - 1 ∧ K ≤ K' ∧ (∀ s ∈ l, s.isComplete = true → s.fin ≤ K') ∧
      (K' = K ∨ ∃ s ∈ l, s.isComplete = true ∧ s.fin = K') := by
  induction l with
  | nil => intro K; exact ⟨K, rfl, Nat.le_refl _, by simp, .inl rfl⟩
  | cons s l ih =>
    intro K
    simp only [List.foldl_cons]
    cases hc : s.isComplete with
    | false =>
      obtain ⟨K', h1, h2, h3, h4⟩ := ih K
      refine ⟨K', by simpa using h1, h2, ?_, ?_⟩
      · intro t ht htc
        rcases List.mem_cons.1 ht with rfl | ht
        · rw [hc] at htc; simp at htc
        · exact h3 t ht htc
      · rcases h4 with h4 | ⟨t, ht, h⟩
        · exact .inl h4
        · exact .inr ⟨t, List.mem_cons_of_mem _ ht, h⟩
    | true =>
      by_cases hgt : (s.fin : Int) > (K : Int) - 1
      · obtain ⟨K', h1, h2, h3, h4⟩ := ih s.fin
        refine ⟨K', by simpa [hgt] using h1, by omega, ?_, ?_⟩
        · intro t ht htc
          rcases List.mem_cons.1 ht with rfl | ht
          · exact h2
          · exact h3 t ht htc
        · rcases h4 with h4 | ⟨t, ht, h⟩
          · exact .inr ⟨s, by simp, hc, h4.symm⟩
          · exact .inr ⟨t, List.mem_cons_of_mem _ ht, h⟩
      · obtain ⟨K', h1, h2, h3, h4⟩ := ih K
        refine ⟨K', by simpa [hgt] using h1, h2, ?_, ?_⟩
        · intro t ht htc
          rcases List.mem_cons.1 ht with rfl | ht
          · omega
          · exact h3 t ht htc
        · rcases h4 with h4 | ⟨t, ht, h⟩
          · exact .inl h4
          · exact .inr ⟨t, List.mem_cons_of_mem _ ht, h⟩

theorem lastUnderstood_spec (chart : Chart A) (n : Nat) : ∀ K : Nat, ∃ K' : Nat, lastUnderstood chart n ((K : Int) - 1) = (K' : Int) - 1 ∧
    K ≤ K' ∧ (∀ k < n, ∀ s ∈ chart.states k, s.isComplete = true → s.fin ≤ K') ∧
    (K' = K ∨ ∃ k < n, ∃ s ∈ chart.states k, s.isComplete = true ∧ s.fin = K') := by
  induction n with
  | zero => intro K; exact ⟨K, rfl, Nat.le_refl _, by intro k hk; omega, .inl rfl⟩
  | succ n ih =>
    intro K
    obtain ⟨K1, a1, a2, a3, a4⟩ := lastUnderstood_list (chart.states n) K
    obtain ⟨K', b1, b2, b3, b4⟩ := ih K1
    refine ⟨K', by rw [lastUnderstood, a1, b1], by omega, ?_, ?_⟩
    · intro k hk s hs hc
      by_cases hkn : k = n
      · subst hkn; have := a3 s hs hc; omega
      · exact b3 k (by omega) s hs hc
    · rcases b4 with b4 | ⟨k, hk, s, hs, hc, hf⟩
      · rcases a4 with a4 | ⟨s, hs, hc, hf⟩
        · exact .inl (by omega)
        · exact .inr ⟨n, by omega, s, hs, hc, by omega⟩
      · exact .inr ⟨k, by omega, s, hs, hc, hf⟩

/-- The word reported is the text after the longest consumed prefix. -/
theorem findUnknownWord_spec {E : Oracles} {rules : List (GRule A)} (ok : RulesOk rules) {text : Str} (hl : LowerOk E text)
    (ha : NamesOk rules) {chart : Chart A} (f : Finished E (startedGrammar E rules) text chart) : ∃ K, Consumed E rules text K ∧
    (∀ k, Consumed E rules text k → k ≤ K) ∧
    findUnknownWord chart text = if K < text.length then (text.drop K).take 9 ++ [' ', '.', '.', '.'] else [] := by
  obtain ⟨K, h1, h2, h3, h4⟩ := lastUnderstood_spec chart (text.length + 1) 0
  refine ⟨K, ?_, ?_, ?_⟩
  · rcases h4 with h4 | ⟨k, _, s, hs, hc, hf⟩
    · exact .inl h4
    · rw [← hf]; exact (f.items k s hs).1.consumed ok hl ha
  · intro k hk
    rcases consumed_item ok hl hk with h | ⟨t, ht, htc, rfl⟩
    · omega
    · obtain ⟨s', hs', he⟩ := f.complete ht
      simp only [EState.syn, Prod.mk.injEq] at he
      have hfl := (ht.valid (chartOk ok hl)).fin_le
      have := h3 t.fin (by omega) s' hs' (by
        simp only [EState.isComplete, syn_length he.1, he.2.1]; exact htc)
      omega
  · simp only [findUnknownWord]
    have h1' : lastUnderstood chart (text.length + 1) (-1) = (K : Int) - 1 := by simpa using h1
    rw [h1']
    by_cases hlt : K < text.length
    · rw [if_pos (by omega), if_pos hlt]
      have : ((K : Int) - 1 + 1).toNat = K := by omega
      rw [this]
    · rw [if_neg (by omega), if_neg hlt]

end Verif
