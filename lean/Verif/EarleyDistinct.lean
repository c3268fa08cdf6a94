import Verif.EarleyMore

/-!
# Each tree is made once
-/

namespace Verif

variable {A : Type}

mutual
/-- The number of characters below a node. -/
def treeWidth : ParseTree A → Nat
  | .node _ [] f _ => f.length
  | .node _ (c :: cs) _ _ => treeWidth c + treesWidth cs
/-- The number of characters below some nodes. -/
def treesWidth : List (ParseTree A) → Nat
  | [] => 0
  | c :: cs => treeWidth c + treesWidth cs
end

theorem treeWidth_node {p : Str} {cs : List (ParseTree A)} {f : Str} {r : GRule A} (h : cs ≠ []) :
    treeWidth (.node p cs f r) = treesWidth cs := by
  cases cs with
  | nil => exact absurd rfl h
  | cons c cs => simp [treeWidth, treesWidth]

/-! ## Lists without duplicates -/

theorem flatMapList_nodup {α β : Type} {f : α → Out (List β)} {xs : List α} {ys : List β} (h : Out.flatMapList f xs = .ok ys)
    (hx : xs.Nodup) (h1 : ∀ x ∈ xs, ∀ zs, f x = .ok zs → zs.Nodup)
    (h2 : ∀ x ∈ xs, ∀ x' ∈ xs, ∀ zs zs', f x = .ok zs → f x' = .ok zs' → ∀ y, y ∈ zs → y ∈ zs' → x = x') : ys.Nodup := by
  induction xs generalizing ys with
  | nil => simp only [Out.flatMapList, Out.ok.injEq] at h; subst h; exact List.nodup_nil
  | cons x xs ih =>
    simp only [Out.flatMapList] at h
    cases hf : f x with
    | err e => rw [hf] at h; simp [Out.bind] at h
    | oof => rw [hf] at h; simp [Out.bind] at h
    | ok zs =>
      rw [hf] at h
      simp only [Out.bind] at h
      cases hm : Out.flatMapList f xs with
      | err e => rw [hm] at h; simp at h
      | oof => rw [hm] at h; simp at h
      | ok ws =>
        rw [hm] at h
        simp only [Out.ok.injEq] at h
        subst h
        obtain ⟨n1, n2⟩ := List.nodup_cons.1 hx
        refine List.nodup_append.2 ⟨h1 x (by simp) zs hf, ih hm n2 (fun u hu => h1 u (by simp [hu]))
          (fun u hu u' hu' => h2 u (by simp [hu]) u' (by simp [hu'])), ?_⟩
        intro y hy y' hy' e
        subst e
        obtain ⟨x', hx', zs', hz', hm'⟩ := ((flatMapList_ok hm).2 y).1 hy'
        have := h2 x (by simp) x' (by simp [hx']) zs zs' hf hz' y hy hm'
        exact n1 (this ▸ hx')

theorem product_nodup {α : Type} {xss : List (List α)} (h : ∀ xs ∈ xss, xs.Nodup) : (product xss).Nodup := by
  induction xss with
  | nil => simp [product]
  | cons xs xss ih =>
    have hn := ih fun ys hy => h ys (by simp [hy])
    have hx := h xs (by simp)
    simp only [product]
    clear h
    induction xs with
    | nil => simp
    | cons x xs ih2 =>
      obtain ⟨n1, n2⟩ := List.nodup_cons.1 hx
      rw [List.flatMap_cons]
      refine List.nodup_append.2 ⟨?_, ih2 n2, ?_⟩
      · exact List.Pairwise.map _ (fun a b hab e => hab (List.cons.inj e).2) hn
      · intro a ha b hb e
        obtain ⟨ys, _, rfl⟩ := List.mem_map.1 ha
        obtain ⟨x', hx', hm⟩ := List.mem_flatMap.1 hb
        obtain ⟨ys', _, rfl⟩ := List.mem_map.1 hm
        exact n1 ((List.cons.inj e).1 ▸ hx')

theorem mapList_nodup {α β : Type} {f : α → Out β} {xs : List α} {ys : List β} (h : Out.mapList f xs = .ok ys) (hx : xs.Nodup)
    (hi : ∀ x ∈ xs, ∀ x' ∈ xs, ∀ y, f x = .ok y → f x' = .ok y → x = x') : ys.Nodup := by
  have hr := mapList_ok h
  clear h
  induction hr with
  | nil => exact List.nodup_nil
  | @cons a b as bs h1 h2 ih =>
    obtain ⟨n1, n2⟩ := List.nodup_cons.1 hx
    refine List.nodup_cons.2 ⟨?_, ih n2 (fun u hu u' hu' => hi u (by simp [hu]) u' (by simp [hu']))⟩
    intro hb
    have : ∃ a' ∈ as, f a' = .ok b := by
      clear ih hi n1 n2 hx
      induction h2 with
      | nil => simp at hb
      | cons g _ ih2 =>
        rcases List.mem_cons.1 hb with rfl | hb
        · exact ⟨_, by simp, g⟩
        · obtain ⟨a', m1, m2⟩ := ih2 hb
          exact ⟨a', by simp [m1], m2⟩
    obtain ⟨a', m1, m2⟩ := this
    exact n1 (hi a (by simp) a' (by simp [m1]) b h1 m2 ▸ m1)

/-! ## Trees determine their states -/

section
variable {E : Oracles} {rules : List (GRule A)} {text : Str} {chart : Chart A}

theorem completed_nodup {g : Grammar A} (f : Finished E g text chart) {k : Nat} {l : List (EState A)} (h : chart.completed k = some l) : l.Nodup := by
  rw [f.completed] at h
  simp only [someList] at h
  split at h
  · simp at h
  · simp only [Option.some.injEq] at h
    rw [← h]
    refine List.Pairwise.filter _ ((f.nodup k).imp ?_)
    intro a b hab e
    rw [e, EState.same_refl] at hab
    simp at hab

/-- The two kinds of states of which trees are made. -/
theorem createTrees_cases (ok : RulesOk rules) (hl : LowerOk E text) (f : Finished E (startedGrammar E rules) text chart) {fuel k : Nat}
    {s : EState A} {ts : List (ParseTree A)} (hs : s ∈ chart.states k)
    (h : createTrees chart (fuel + 1) s = .ok ts) :
    (∃ w, ts = [.node s.rule.ante.predicate [] w s.rule] ∧ k = s.start + w.length) ∨
    (s.rule.cons ≠ [] ∧ (∀ c ∈ s.rule.cons, c.args.head? ≠ some cTerminal) ∧
      ∀ t, t ∈ ts ↔ ∃ seq trees children, StateChain chart s.rule.cons s.start k seq ∧
      Out.mapList (createTrees chart fuel) seq = .ok trees ∧ children ∈ product trees ∧
      t = .node s.rule.ante.predicate children [] s.rule) := by
  have cok := chartOk ok hl
  obtain ⟨hit, hfin⟩ := f.items k s hs
  have v := hit.valid cok
  rcases v.kind with hb | ⟨r, c0, _, _, hsc⟩
  · right
    obtain ⟨_, hterm⟩ := base_relation ok hb
    refine ⟨v.cons_ne, hterm, ?_⟩
    have := (createTrees_mem cok f v.cons_ne hterm h).2
    rw [hfin] at this
    exact this
  · left
    obtain ⟨w, hw, hp, htok⟩ := scanned_token hsc rfl v.fin_le
    rw [createTrees, hw] at h
    simp only [List.head?_cons, if_true, Out.ok.injEq] at h
    exact ⟨w, h.symm, by rw [← hfin]; exact htok.1.1⟩

theorem createTrees_rule {fuel : Nat} {s : EState A} {ts : List (ParseTree A)} (h : createTrees chart fuel s = .ok ts) {t : ParseTree A}
    (ht : t ∈ ts) : t.rule = s.rule := by
  cases fuel with
  | zero => simp [createTrees] at h
  | succ fuel =>
    rw [createTrees] at h
    cases hc : s.rule.cons with
    | nil => rw [hc] at h; simp at h
    | cons c cs =>
      rw [hc] at h
      simp only at h
      by_cases hterm : c.args.head? = some cTerminal
      · rw [if_pos hterm] at h
        simp only [Out.ok.injEq] at h
        subst h
        simp only [List.mem_singleton] at ht
        subst ht; rfl
      · rw [if_neg hterm] at h
        cases hfs : findSeqs chart s cs.length s.fin with
        | err e => rw [hfs] at h; simp [Out.bind] at h
        | oof => rw [hfs] at h; simp [Out.bind] at h
        | ok seqs =>
          rw [hfs] at h
          simp only [Out.bind] at h
          obtain ⟨seq, _, zs, hz, hy⟩ := ((flatMapList_ok h).2 t).1 ht
          cases hm : Out.mapList (createTrees chart fuel) seq with
          | err e => rw [hm] at hz; simp at hz
          | oof => rw [hm] at hz; simp at hz
          | ok trees =>
            rw [hm] at hz
            simp only [Out.ok.injEq] at hz
            subst hz
            obtain ⟨_, _, rfl⟩ := List.mem_map.1 hy
            rfl

theorem createTrees_width (ok : RulesOk rules) (hl : LowerOk E text) (f : Finished E (startedGrammar E rules) text chart) (fuel : Nat) :
    ∀ {s : EState A} {k : Nat} {ts : List (ParseTree A)}, s ∈ chart.states k → s.isComplete = true → createTrees chart fuel s = .ok ts →
    ∀ t ∈ ts, s.start + treeWidth t = k := by
  induction fuel with
  | zero => intro s k ts _ _ h; simp [createTrees] at h
  | succ fuel ih =>
    intro s k ts hs hcomp h t ht
    rcases createTrees_cases ok hl f hs h with ⟨w, rfl, hk⟩ | ⟨hne, _, hm⟩
    · simp only [List.mem_singleton] at ht
      subst ht
      simp [treeWidth, hk]
    · obtain ⟨seq, trees, children, hch, hmt, hp, rfl⟩ := (hm t).1 ht
      have key : ∀ {cs : List Constituent} {i j : Nat} {seq : List (EState A)} {trees : List (List (ParseTree A))} {children : List (ParseTree A)},
          StateChain chart cs i j seq → Out.mapList (createTrees chart fuel) seq = .ok trees → children ∈ product trees →
          i + treesWidth children = j ∧ children.length = cs.length := by
        intro cs i j seq trees children hch
        induction hch generalizing trees children with
        | nil i =>
          intro hmt hp
          simp only [Out.mapList, Out.ok.injEq] at hmt
          subst hmt
          simp only [product, List.mem_singleton] at hp
          subst hp
          simp [treesWidth]
        | @cons c cs i j k s rest g1 g2 g3 g4 g5 _ ih2 =>
          intro hmt hp
          have h1 := mapList_ok hmt
          cases h1 with
          | @cons _ b _ bs hb hbs =>
            have hmr : Out.mapList (createTrees chart fuel) rest = .ok bs := by
              simp only [Out.mapList, hb, Out.bind] at hmt
              cases hr : Out.mapList (createTrees chart fuel) rest with
              | err e => rw [hr] at hmt; simp at hmt
              | oof => rw [hr] at hmt; simp at hmt
              | ok zs =>
                rw [hr] at hmt
                simp only [Out.ok.injEq, List.cons.injEq, true_and] at hmt
                rw [hmt]
            have h2 := mem_product.1 hp
            cases h2 with
            | cons hx hxs =>
              have w1 := ih g1 g2 hb _ hx
              obtain ⟨w2, w3⟩ := ih2 hmr (mem_product.2 hxs)
              refine ⟨?_, by simp [w3]⟩
              simp only [treesWidth]
              omega
      obtain ⟨k1, k2⟩ := key hch hmt hp
      rw [treeWidth_node]
      · exact k1
      · intro e
        rw [e] at k2
        exact hne (List.eq_nil_of_length_eq_zero k2.symm)

/-- States that start at the same place and have a tree in common are the same. -/
theorem state_of_tree (ok : RulesOk rules) (hl : LowerOk E text) (f : Finished E (startedGrammar E rules) text chart) {fuel fuel' k k' : Nat}
    {s s' : EState A} {ts ts' : List (ParseTree A)} (hs : s ∈ chart.states k) (hc : s.isComplete = true) (h : createTrees chart fuel s = .ok ts)
    (hs' : s' ∈ chart.states k') (hc' : s'.isComplete = true) (h' : createTrees chart fuel' s' = .ok ts') {t : ParseTree A} (ht : t ∈ ts)
    (ht' : t ∈ ts') (hst : s.start = s'.start ∨ k = k') : s = s' ∧ k = k' := by
  have cok := chartOk ok hl
  have w := createTrees_width ok hl f fuel hs hc h t ht
  have w' := createTrees_width ok hl f fuel' hs' hc' h' t ht'
  have hr : s.rule = s'.rule := by rw [← createTrees_rule h ht, ← createTrees_rule h' ht']
  obtain ⟨hit, hfin⟩ := f.items k s hs
  obtain ⟨hit', hfin'⟩ := f.items k' s' hs'
  have v := hit.valid cok
  have v' := hit'.valid cok
  simp only [EState.isComplete, decide_eq_true_eq] at hc hc'
  have hd : s.dot = s'.dot := by
    have := v.dot_le; have := v'.dot_le
    rw [hr] at *
    omega
  have hstart : s.start = s'.start := by omega
  have hk : k = k' := by omega
  refine ⟨?_, hk⟩
  cases s; cases s'
  simp only at hr hd hstart hfin hfin'
  subst hr hd hstart hfin hfin' hk
  rfl

theorem findSeqs_nodup (f : Finished E (startedGrammar E rules) text chart) {parent : EState A} (k : Nat) :
    ∀ {fin : Nat} {seqs : List (List (EState A))}, findSeqs chart parent k fin = .ok seqs → seqs.Nodup := by
  induction k with
  | zero =>
    intro fin seqs h
    rw [findSeqs] at h
    by_cases h0 : fin = 0
    · rw [if_pos h0] at h; simp only [Out.ok.injEq] at h; subst h; exact List.nodup_nil
    · rw [if_neg h0] at h
      cases hcm : chart.completed fin with
      | none => rw [hcm] at h; simp at h
      | some l =>
        rw [hcm] at h
        cases hc : parent.rule.cons[0]? with
        | none =>
          simp only [hc] at h
          refine flatMapList_nodup h (completed_nodup f hcm) ?_ ?_
          · intro x hx zs hz; simp at hz
          · intro x hx x' hx' zs zs' hz; simp at hz
        | some c =>
          simp only [hc] at h
          have hz : ∀ (s : EState A) zs, (if s.rule.ante.equals c = true then (if s.start = parent.start then Out.ok [[s]] else .ok []) else .ok []) = .ok zs →
              zs = [[s]] ∨ zs = [] := by
            intro s zs h
            split at h
            · split at h <;> simp only [Out.ok.injEq] at h <;> simp [← h]
            · simp only [Out.ok.injEq] at h; simp [← h]
          refine flatMapList_nodup h (completed_nodup f hcm) ?_ ?_
          · intro x _ zs h
            rcases hz x zs h with rfl | rfl <;> simp
          · intro x _ x' _ zs zs' h h' y hy hy'
            rcases hz x zs h with rfl | rfl <;> rcases hz x' zs' h' with rfl | rfl <;> simp at hy hy'
            rw [hy] at hy'
            simpa using hy'
  | succ k ih =>
    intro fin seqs h
    rw [findSeqs] at h
    by_cases h0 : fin = 0
    · rw [if_pos h0] at h; simp only [Out.ok.injEq] at h; subst h; exact List.nodup_nil
    · rw [if_neg h0] at h
      cases hcm : chart.completed fin with
      | none => rw [hcm] at h; simp at h
      | some l =>
        rw [hcm] at h
        cases hc : parent.rule.cons[k + 1]? with
        | none =>
          simp only [hc] at h
          refine flatMapList_nodup h (completed_nodup f hcm) ?_ ?_
          · intro x hx zs hz; simp at hz
          · intro x hx x' hx' zs zs' hz; simp at hz
        | some c =>
          simp only [hc] at h
          have hz : ∀ (s : EState A) zs, (if s.rule.ante.equals c = true then
              ((findSeqs chart parent k s.start).bind fun prev => Out.ok (prev.map fun seq => seq ++ [s])) else .ok []) = .ok zs →
              zs = [] ∨ ∃ prev, findSeqs chart parent k s.start = .ok prev ∧ zs = prev.map fun seq => seq ++ [s] := by
            intro s zs h
            split at h
            · cases hfs : findSeqs chart parent k s.start with
              | err e => rw [hfs] at h; simp [Out.bind] at h
              | oof => rw [hfs] at h; simp [Out.bind] at h
              | ok prev =>
                rw [hfs] at h
                simp only [Out.bind, Out.ok.injEq] at h
                exact .inr ⟨prev, rfl, h.symm⟩
            · simp only [Out.ok.injEq] at h; exact .inl h.symm
          refine flatMapList_nodup h (completed_nodup f hcm) ?_ ?_
          · intro x _ zs h
            rcases hz x zs h with rfl | ⟨prev, hp, rfl⟩
            · exact List.nodup_nil
            · exact List.Pairwise.map _ (fun a b hab e => hab (List.append_cancel_right e)) (ih hp)
          · intro x _ x' _ zs zs' h h' y hy hy'
            rcases hz x zs h with rfl | ⟨prev, _, rfl⟩
            · simp at hy
            rcases hz x' zs' h' with rfl | ⟨prev', _, rfl⟩
            · simp at hy'
            obtain ⟨a, _, rfl⟩ := List.mem_map.1 hy
            obtain ⟨b, _, e⟩ := List.mem_map.1 hy'
            have := congrArg List.getLast? e
            simpa using this.symm

/-- The children determine the states. -/
theorem chain_of_children (ok : RulesOk rules) (hl : LowerOk E text) (f : Finished E (startedGrammar E rules) text chart) {fuel : Nat}
    {cs : List Constituent} {i k : Nat} {seq : List (EState A)} (hch : StateChain chart cs i k seq) :
    ∀ {trees : List (List (ParseTree A))} {seq' : List (EState A)} {trees' : List (List (ParseTree A))} {children : List (ParseTree A)},
    Out.mapList (createTrees chart fuel) seq = .ok trees → StateChain chart cs i k seq' →
    Out.mapList (createTrees chart fuel) seq' = .ok trees' → children ∈ product trees → children ∈ product trees' → seq = seq' := by
  induction hch with
  | nil i => intro trees seq' trees' children _ hch' _ _ _; cases hch'; rfl
  | @cons c cs i j k s rest g1 g2 g3 g4 g5 _ ih =>
    intro trees seq' trees' children hm hch' hm' hp hp'
    cases hch' with
    | @cons _ _ _ j' _ s' rest' g1' g2' g3' g4' g5' gr =>
      have cut : ∀ {s : EState A} {rest : List (EState A)} {trees : List (List (ParseTree A))},
          Out.mapList (createTrees chart fuel) (s :: rest) = .ok trees →
          ∃ b bs, createTrees chart fuel s = .ok b ∧ Out.mapList (createTrees chart fuel) rest = .ok bs ∧ trees = b :: bs := by
        intro s rest trees h
        simp only [Out.mapList] at h
        cases hb : createTrees chart fuel s with
        | err e => rw [hb] at h; simp [Out.bind] at h
        | oof => rw [hb] at h; simp [Out.bind] at h
        | ok b =>
          rw [hb] at h
          simp only [Out.bind] at h
          cases hr : Out.mapList (createTrees chart fuel) rest with
          | err e => rw [hr] at h; simp at h
          | oof => rw [hr] at h; simp at h
          | ok bs =>
            rw [hr] at h
            simp only [Out.ok.injEq] at h
            exact ⟨b, bs, rfl, rfl, h.symm⟩
      obtain ⟨b, bs, e1, e2, rfl⟩ := cut hm
      obtain ⟨b', bs', e1', e2', rfl⟩ := cut hm'
      have q := mem_product.1 hp
      have q' := mem_product.1 hp'
      cases q with
      | cons hx hxs =>
        cases q' with
        | cons hx' hxs' =>
          obtain ⟨rfl, rfl⟩ := state_of_tree ok hl f g1 g2 e1 g1' g2' e1' hx hx' (.inl (by rw [g3, g3']))
          rw [ih e2 gr e2' (mem_product.2 hxs) (mem_product.2 hxs')]

theorem createTrees_nodup (ok : RulesOk rules) (hl : LowerOk E text) (f : Finished E (startedGrammar E rules) text chart) (fuel : Nat) :
    ∀ {s : EState A} {ts : List (ParseTree A)}, (s.rule.cons ≠ []) →
    ((∃ k, s ∈ chart.states k ∧ s.isComplete = true) ∨ s = completeGamma E text.length) → createTrees chart fuel s = .ok ts → ts.Nodup := by
  have cok := chartOk ok hl
  induction fuel with
  | zero => intro s ts _ _ h; simp [createTrees] at h
  | succ fuel ih =>
    intro s ts hne hs h
    rw [createTrees] at h
    cases hcons : s.rule.cons with
    | nil => exact absurd hcons hne
    | cons c cs =>
      rw [hcons] at h
      simp only at h
      by_cases hterm : c.args.head? = some cTerminal
      · rw [if_pos hterm] at h
        simp only [Out.ok.injEq] at h
        subst h; simp
      · rw [if_neg hterm] at h
        cases hfs : findSeqs chart s cs.length s.fin with
        | err e => rw [hfs] at h; simp [Out.bind] at h
        | oof => rw [hfs] at h; simp [Out.bind] at h
        | ok seqs =>
          rw [hfs] at h
          change Out.flatMapList (fun seq => (Out.mapList (createTrees chart fuel) seq).bind fun trees =>
            Out.ok ((product trees).map fun children => ParseTree.node s.rule.ante.predicate children [] s.rule)) seqs = .ok ts at h
          have hseq := findSeqs_mem cok f cs.length (by rw [hcons]; simp) hfs
          rw [List.take_of_length_le (by rw [hcons]; simp)] at hseq
          have hz : ∀ (seq : List (EState A)) zs, ((Out.mapList (createTrees chart fuel) seq).bind fun trees =>
              Out.ok ((product trees).map fun children => ParseTree.node s.rule.ante.predicate children [] s.rule)) = .ok zs →
              ∃ trees, Out.mapList (createTrees chart fuel) seq = .ok trees ∧
                zs = (product trees).map fun children => .node s.rule.ante.predicate children [] s.rule := by
            intro seq zs h
            cases hm : Out.mapList (createTrees chart fuel) seq with
            | err e => rw [hm] at h; simp [Out.bind] at h
            | oof => rw [hm] at h; simp [Out.bind] at h
            | ok trees => rw [hm] at h; simp only [Out.bind, Out.ok.injEq] at h; exact ⟨trees, rfl, h.symm⟩
          have hchain : ∀ {cs : List Constituent} {i k : Nat} {seq : List (EState A)}, StateChain chart cs i k seq →
              ∀ x ∈ seq, x.rule.cons ≠ [] ∧ ∃ k, x ∈ chart.states k ∧ x.isComplete = true := by
            intro cs i k seq hch
            induction hch with
            | nil => simp
            | cons g1 g2 _ _ _ _ ih2 =>
              intro x hx
              rcases List.mem_cons.1 hx with rfl | hx
              · exact ⟨((f.items _ _ g1).1.valid cok).cons_ne, _, g1, g2⟩
              · exact ih2 x hx
          refine flatMapList_nodup h (findSeqs_nodup f _ hfs) ?_ ?_
          · intro seq hseqm zs hzs
            obtain ⟨trees, hm, rfl⟩ := hz seq zs hzs
            refine List.Pairwise.map _ (fun a b hab e => hab (by injection e)) (product_nodup ?_)
            intro xs hxs
            have hall := hchain ((hseq seq).1 hseqm)
            have hr := mapList_ok hm
            clear hm hzs hseqm
            induction hr with
            | nil => simp at hxs
            | @cons a b as bs e1 e2 ih2 =>
              rcases List.mem_cons.1 hxs with rfl | hxs
              · obtain ⟨n, hk⟩ := hall a (by simp)
                exact ih n (.inl hk) e1
              · exact ih2 hxs fun x hx => hall x (by simp [hx])
          · intro seq hs1 seq' hs2 zs zs' h1 h2 y hy hy'
            obtain ⟨trees, hm, rfl⟩ := hz seq zs h1
            obtain ⟨trees', hm', rfl⟩ := hz seq' zs' h2
            obtain ⟨a, ha, rfl⟩ := List.mem_map.1 hy
            obtain ⟨b, hb, e⟩ := List.mem_map.1 hy'
            have : b = a := by injection e
            subst this
            exact chain_of_children ok hl f ((hseq seq).1 hs1) hm ((hseq seq').1 hs2) hm' ha hb

/-- The shape of the trees made for the root. -/
theorem gamma_tree (ok : RulesOk rules) (hl : LowerOk E text) (f : Finished E (startedGrammar E rules) text chart) {fuel : Nat}
    {nodes : List (ParseTree A)} (hg : createTrees chart fuel (completeGamma E text.length) = .ok nodes) {node : ParseTree A}
    (hn : node ∈ nodes) : ∃ m t, node = .node cGamma [.node cDelta [t] [] (deltaRule E m)] [] (gammaRule E) ∧ t.rule.ante.args.length = m := by
  have cok := chartOk ok hl
  cases fuel with
  | zero => simp [createTrees] at hg
  | succ fuel =>
    obtain ⟨seq, trees, children, hch, hmt, hp, rfl⟩ :=
      ((createTrees_mem cok f (by simp [completeGamma, gammaRule, GRule.new]) (gamma_not_terminal E) hg).2 node).1 hn
    obtain ⟨s, rfl, hs, hcomp, hsst, hsf, hsa⟩ := chain_single hch
    obtain ⟨tl, htl, rfl⟩ := mapList_single hmt
    obtain ⟨td, htd, rfl⟩ := product_single hp
    obtain ⟨hb, m, hm⟩ := delta_state ok hl f hs hsa
    cases fuel with
    | zero => simp [createTrees] at htl
    | succ fuel =>
      obtain ⟨seq2, trees2, children2, hch2, hmt2, hp2, rfl⟩ :=
        ((createTrees_mem cok f (by rw [hm]; simp [deltaRule, GRule.new]) (base_relation ok hb).2 htl).2 td).1 htd
      rw [hm] at hch2
      obtain ⟨s2, rfl, hs2, hcomp2, hsst2, hsf2, hsa2⟩ := chain_single hch2
      obtain ⟨tl2, htl2, rfl⟩ := mapList_single hmt2
      obtain ⟨t2, ht2, rfl⟩ := product_single hp2
      refine ⟨m, t2, ?_, ?_⟩
      · rw [hm]; rfl
      · rw [createTrees_rule htl2 ht2]
        simp only [Constituent.syn, Prod.mk.injEq] at hsa2
        simpa using hsa2.2.1

theorem roots_nodup (ok : RulesOk rules) (hl : LowerOk E text) (f : Finished E (startedGrammar E rules) text chart) {fuel : Nat}
    {roots : List (ParseTree A)} (h : extractRoots E fuel chart text.length = .ok roots) : roots.Nodup := by
  simp only [extractRoots] at h
  cases hcm : chart.completed text.length with
  | none => rw [hcm] at h; simp only [Out.ok.injEq] at h; subst h; exact List.nodup_nil
  | some l =>
    rw [hcm] at h
    simp only at h
    cases hg : createTrees chart fuel (completeGamma E text.length) with
    | err e => rw [hg] at h; simp [Out.bind] at h
    | oof => rw [hg] at h; simp [Out.bind] at h
    | ok nodes =>
      rw [hg] at h
      simp only [Out.bind] at h
      refine mapList_nodup h (createTrees_nodup ok hl f fuel (by simp [completeGamma, gammaRule, GRule.new]) (.inr rfl) hg) ?_
      intro x hx x' hx' y hy hy'
      obtain ⟨m, t, rfl, hm⟩ := gamma_tree ok hl f hg hx
      obtain ⟨m', t', rfl, hm'⟩ := gamma_tree ok hl f hg hx'
      simp only [stripRoot, ParseTree.children, Out.ok.injEq] at hy hy'
      subst hy
      rw [hy'] at hm'
      rw [← hm, ← hm', hy']

end

end Verif
