import Verif.Earley
import Verif.Props.Grammar

/-!
# The chart: what it contains, and that it is built without exceptions
-/

namespace Verif

variable {A : Type}

/-! ## Syntax of constituents, rules and states -/

/-- What `equals` compares. -/
def Constituent.syn (c : Constituent) : Str × Nat × PosType := (c.predicate, c.args.length, c.pos)

theorem Constituent.equals_iff {a b : Constituent} : a.equals b = true ↔ a.syn = b.syn := by
  simp only [Constituent.equals, Constituent.syn, Prod.mk.injEq]
  by_cases h1 : a.predicate = b.predicate <;> by_cases h2 : a.args.length = b.args.length <;> by_cases h3 : a.pos = b.pos <;>
    simp [h1, h2, h3]

/-- What `equals` compares. -/
def GRule.syn (r : GRule A) : (Str × Nat × PosType) × List (Str × Nat × PosType) := (r.ante.syn, r.cons.map Constituent.syn)

theorem equalsConsequents_iff {as bs : List Constituent} (h : as.length = bs.length) :
    GRule.equalsConsequents as bs = true ↔ as.map Constituent.syn = bs.map Constituent.syn := by
  induction as generalizing bs with
  | nil => cases bs <;> simp_all [GRule.equalsConsequents]
  | cons a as ih =>
    cases bs with
    | nil => simp at h
    | cons b bs =>
      have h' : as.length = bs.length := by simpa using h
      simp only [GRule.equalsConsequents, List.map_cons, List.cons.injEq, ← ih h', ← Constituent.equals_iff]
      cases a.equals b <;> simp

theorem GRule.equals_iff {r s : GRule A} : r.equals s = true ↔ r.syn = s.syn := by
  simp only [GRule.equals, GRule.syn, Prod.mk.injEq, ← Constituent.equals_iff]
  cases hc : r.ante.equals s.ante with
  | false => simp
  | true =>
    by_cases hl : r.cons.length = s.cons.length
    · simp [hl, equalsConsequents_iff hl]
    · simp only [Bool.not_true, Bool.false_eq_true, if_false, ne_eq, hl, not_false_eq_true, if_true, true_and, false_iff]
      intro h
      exact hl (by simpa using congrArg List.length h)

/-- What `__eq__` of states compares. -/
def EState.syn (s : EState A) := (s.rule.syn, s.dot, s.start, s.fin)

theorem EState.same_syn {E : Oracles} {s t : EState A} (h : s.same E t = true) : s.syn = t.syn := by
  simp only [EState.same, Bool.and_eq_true, decide_eq_true_eq, GRule.equals_iff] at h
  simp [EState.syn, h.2]

theorem EState.same_refl (E : Oracles) (s : EState A) : s.same E s = true := by
  simp [EState.same, GRule.equals_iff]

theorem syn_cons {r s : GRule A} (h : r.syn = s.syn) (k : Nat) {c : Constituent} (hc : r.cons[k]? = some c) :
    ∃ c', s.cons[k]? = some c' ∧ c.syn = c'.syn := by
  have h2 : r.cons.map Constituent.syn = s.cons.map Constituent.syn := (Prod.mk.inj h).2
  have := congrArg (fun l => l[k]?) h2
  simp only [List.getElem?_map, hc, Option.map_some] at this
  cases hs : s.cons[k]? with
  | none => simp [hs] at this
  | some c' => exact ⟨c', rfl, by simpa [hs] using this⟩

theorem syn_length {r s : GRule A} (h : r.syn = s.syn) : r.cons.length = s.cons.length := by
  have h2 : r.cons.map Constituent.syn = s.cons.map Constituent.syn := (Prod.mk.inj h).2
  simpa using congrArg List.length h2

/-! ## Enqueuing -/

/-- `chart'` is `chart` with some of the states of `l` added, so that all of `l` are there (up to `__eq__`). -/
structure Grown (E : Oracles) (chart chart' : Chart A) (l : List (EState A)) : Prop where
  completed : chart'.completed = chart.completed
  states : ∀ i, ∃ ext, chart'.states i = chart.states i ++ ext ∧ ∀ s ∈ ext, s ∈ l ∧ s.fin = i
  covers : ∀ s ∈ l, ∃ s' ∈ chart'.states s.fin, s'.syn = s.syn
  nodup : (∀ i, (chart.states i).Pairwise fun s t => s.same E t = false) → ∀ i, (chart'.states i).Pairwise fun s t => s.same E t = false

theorem enqueue_ok (E : Oracles) {n : Nat} (chart : Chart A) {s : EState A} (h : s.fin ≤ n) :
    ∃ chart', chart.enqueue E n s s.fin = .ok chart' ∧ Grown E chart chart' [s] := by
  unfold Chart.enqueue
  rw [if_neg (by omega)]
  by_cases ha : (chart.states s.fin).any (fun t => t.same E s) = true
  · rw [if_pos ha]
    obtain ⟨t, ht, hst⟩ := List.any_eq_true.1 ha
    refine ⟨chart, rfl, rfl, fun i => ⟨[], by simp⟩, ?_, fun h => h⟩
    intro s' hs'
    simp only [List.mem_singleton] at hs'
    subst hs'
    exact ⟨t, ht, EState.same_syn hst⟩
  · rw [if_neg ha]
    refine ⟨_, rfl, rfl, ?_, ?_, ?_⟩
    · intro i
      by_cases hi : i = s.fin
      · subst hi; exact ⟨[s], by simp⟩
      · exact ⟨[], by simp [hi]⟩
    · intro s' hs'
      simp only [List.mem_singleton] at hs'
      subst hs'
      exact ⟨s', by simp, rfl⟩
    · intro hn i
      by_cases hi : i = s.fin
      · subst hi
        simp only [if_true]
        rw [List.pairwise_append]
        refine ⟨hn _, by simp, ?_⟩
        intro t ht u hu
        simp only [List.mem_singleton] at hu
        subst hu
        cases hst : t.same E u with
        | false => rfl
        | true => exact absurd (List.any_eq_true.2 ⟨t, ht, hst⟩) ha
      · simp only [hi, if_false]; exact hn i

theorem Grown.mem {E : Oracles} {chart chart' : Chart A} {l : List (EState A)} (h : Grown E chart chart' l) {i : Nat} {s : EState A}
    (hs : s ∈ chart.states i) : s ∈ chart'.states i := by
  obtain ⟨ext, he, _⟩ := h.states i
  rw [he]; exact List.mem_append_left _ hs

theorem Grown.mem_inv {E : Oracles} {chart chart' : Chart A} {l : List (EState A)} (h : Grown E chart chart' l) {i : Nat} {s : EState A}
    (hs : s ∈ chart'.states i) : s ∈ chart.states i ∨ (s ∈ l ∧ s.fin = i) := by
  obtain ⟨ext, he, hx⟩ := h.states i
  rw [he] at hs
  rcases List.mem_append.1 hs with h | h
  · exact .inl h
  · exact .inr (hx s h)

theorem enqueueAll_ok (E : Oracles) {n : Nat} (l : List (EState A)) (chart : Chart A) (h : ∀ s ∈ l, s.fin ≤ n) :
    ∃ chart', chart.enqueueAll E n l = .ok chart' ∧ Grown E chart chart' l := by
  induction l generalizing chart with
  | nil => exact ⟨chart, rfl, rfl, fun i => ⟨[], by simp⟩, by simp, fun h => h⟩
  | cons s l ih =>
    obtain ⟨c1, h1, g1⟩ := enqueue_ok E chart (h s (by simp))
    obtain ⟨c2, h2, g2⟩ := ih c1 fun t ht => h t (List.mem_cons_of_mem _ ht)
    refine ⟨c2, by simp [Chart.enqueueAll, h1, Out.bind, h2], g2.completed.trans g1.completed, ?_, ?_, fun hn => g2.nodup (g1.nodup hn)⟩
    · intro i
      obtain ⟨e1, he1, hx1⟩ := g1.states i
      obtain ⟨e2, he2, hx2⟩ := g2.states i
      refine ⟨e1 ++ e2, by rw [he2, he1, List.append_assoc], ?_⟩
      intro t ht
      rcases List.mem_append.1 ht with ht | ht
      · obtain ⟨h1, h2⟩ := hx1 t ht
        simp only [List.mem_singleton] at h1
        exact ⟨by simp [h1], h2⟩
      · exact ⟨List.mem_cons_of_mem _ (hx2 t ht).1, (hx2 t ht).2⟩
    · intro t ht
      rcases List.mem_cons.1 ht with rfl | ht
      · obtain ⟨t', ht', hs⟩ := g1.covers t (by simp)
        exact ⟨t', g2.mem ht', hs⟩
      · exact g2.covers t ht

/-! ## Earley's deduction system -/

/-- Specification: the states that can be deduced, independently of any order. -/
inductive Item (E : Oracles) (g : Grammar A) (text : Str) : EState A → Prop
  | init : Item E g text (incompleteGamma E)
  | predict {s c r} : Item E g text s → s.isComplete = false → s.rule.cons[s.dot - 1]? = some c →
      r ∈ g.findRules c.predicate c.args.length → Item E g text ⟨r, 1, s.fin, s.fin⟩
  | scan {s c t} : Item E g text s → s.isComplete = false → s.rule.cons[s.dot - 1]? = some c → s.fin < text.length →
      t ∈ scanStates E text s.fin c → Item E g text t
  | complete {s c a} : Item E g text s → s.isComplete = true → Item E g text c → c.fin = s.start → advance s c = some a →
      Item E g text a

/-- A rule of the grammar. -/
def IsRule (g : Grammar A) (r : GRule A) : Prop := ∃ p n, r ∈ g.findRules p n

/-- The conditions under which the chart is built: no rules without consequents, no empty words, and (about the text and Python's
`lower`) words are only found inside the text. -/
structure ChartOk (E : Oracles) (g : Grammar A) (text : Str) : Prop where
  cons_ne : ∀ r, IsRule g r → r.cons ≠ []
  word_ne : ∀ r, IsRule g r → ∀ c ∈ r.cons, c.pos = .word → c.predicate ≠ []
  inside : ∀ i w, i ≤ text.length → readWord E text i w = true → w ≠ [] → i + w.length ≤ text.length

/-- A rule of the grammar or the start rule. -/
def IsBase (E : Oracles) (g : Grammar A) (r : GRule A) : Prop := r = gammaRule E ∨ IsRule g r

/-- The states of the chart are of two kinds. -/
structure Valid (E : Oracles) (g : Grammar A) (text : Str) (s : EState A) : Prop where
  fin_le : s.fin ≤ text.length
  start_le : s.start ≤ s.fin
  dot_pos : 1 ≤ s.dot
  dot_le : s.dot ≤ s.rule.cons.length + 1
  cons_ne : s.rule.cons ≠ []
  moved : 1 < s.dot → s.start < s.fin
  kind : IsBase E g s.rule ∨ ∃ r c, IsBase E g r ∧ c ∈ r.cons ∧ s ∈ scanStates E text s.start c

theorem mem_scanStates {E : Oracles} {text : Str} {i : Nat} {c : Constituent} {t : EState A} (h : t ∈ scanStates E text i c) :
    (c.pos = .regexp ∧ ∃ m l, E.regex c.predicate (text.drop i) = some m ∧ l < m ∧ i + (l + 1) ≤ text.length ∧
      t = scannedState E c i ((text.drop i).take (l + 1)) (.word ((text.drop i).take (l + 1)))) ∨
    (c.pos = .word ∧ readWord E text i c.predicate = true ∧ t = scannedState E c i c.predicate .none) := by
  simp only [scanStates] at h
  rcases List.mem_append.1 h with h | h
  · left
    split at h
    next hp =>
      refine ⟨hp, ?_⟩
      simp only [performRegexp] at h
      cases hm : E.regex c.predicate (text.drop i) with
      | none => simp [hm] at h
      | some m =>
        simp only [hm, Option.map_some, List.mem_map, List.mem_range, List.length_take, List.length_drop] at h
        obtain ⟨l, hl, rfl⟩ := h
        refine ⟨m, l, rfl, by omega, by omega, ?_⟩
        rw [List.take_take, Nat.min_eq_left (by omega)]
    next => simp at h
  · right
    split at h
    next hp =>
      split at h
      next hr => exact ⟨hp, hr, by simpa using h⟩
      next => simp at h
    next => simp at h

theorem scanStates_start {E : Oracles} {text : Str} {i : Nat} {c : Constituent} {t : EState A} (h : t ∈ scanStates E text i c) :
    t.start = i ∧ t.dot = 2 ∧ t.rule.cons.length = 1 ∧ t.rule.ante.syn = c.syn := by
  rcases mem_scanStates h with ⟨_, m, l, _, _, _, rfl⟩ | ⟨_, _, rfl⟩ <;>
    simp [scannedState, GRule.new, Constituent.syn]

theorem scanStates_pos {E : Oracles} {text : Str} {i : Nat} {c : Constituent} {t : EState A} (h : t ∈ scanStates E text i c) :
    c.pos ≠ .relation := by
  rcases mem_scanStates h with ⟨h, _⟩ | ⟨h, _⟩ <;> rw [h] <;> simp

theorem advance_eq {s c a : EState A} (h : advance s c = some a) : ∃ x, c.rule.cons[c.dot - 1]? = some x ∧ c.dot ≤ c.rule.cons.length ∧
    x.predicate = s.rule.ante.predicate ∧ x.pos = s.rule.ante.pos ∧ a = ⟨c.rule, c.dot + 1, c.start, s.fin⟩ := by
  simp only [advance] at h
  split at h
  · simp at h
  next hd =>
    split at h
    · simp at h
    next x hx =>
      split at h
      · simp at h
      next h1 =>
        split at h
        · simp at h
        next h2 =>
          simp only [ne_eq, Classical.not_not] at h1 h2
          exact ⟨x, hx, by omega, h1, h2, by simpa using h.symm⟩

theorem base_cons_ne {E : Oracles} {g : Grammar A} {text : Str} (ok : ChartOk E g text) {r : GRule A} (h : IsBase E g r) : r.cons ≠ [] := by
  rcases h with rfl | h
  · simp [gammaRule, GRule.new]
  · exact ok.cons_ne r h

theorem scanned_fits {E : Oracles} {g : Grammar A} {text : Str} (ok : ChartOk E g text) {i : Nat} (hi : i ≤ text.length) {r : GRule A}
    (hr : IsBase E g r) {c : Constituent} (hc : c ∈ r.cons) {t : EState A} (ht : t ∈ scanStates E text i c) :
    i < t.fin ∧ t.fin ≤ text.length := by
  rcases mem_scanStates ht with ⟨_, m, l, _, _, hl, rfl⟩ | ⟨hp, hw, rfl⟩
  · simp only [scannedState, List.length_take, List.length_drop]; omega
  · have hne : c.predicate ≠ [] := by
      rcases hr with rfl | hr
      · simp only [gammaRule, GRule.new, List.mem_singleton] at hc
        subst hc; simp [deltaC] at hp
      · exact ok.word_ne r hr c hc hp
    have := ok.inside i _ hi hw hne
    have := List.length_pos_iff.2 hne
    simp only [scannedState]; omega

theorem incomplete_base {E : Oracles} {g : Grammar A} {text : Str} {s : EState A} (v : Valid E g text s) (h : s.isComplete = false) :
    IsBase E g s.rule := by
  rcases v.kind with hb | ⟨r, c, _, _, hs⟩
  · exact hb
  · have := scanStates_start hs
    simp only [EState.isComplete, decide_eq_false_iff_not] at h
    omega

theorem Item.valid {E : Oracles} {g : Grammar A} {text : Str} (ok : ChartOk E g text) {s : EState A} (h : Item E g text s) :
    Valid E g text s := by
  induction h with
  | init =>
    exact ⟨by simp [incompleteGamma], by simp [incompleteGamma], by simp [incompleteGamma], by simp [incompleteGamma],
      by simp [incompleteGamma, gammaRule, GRule.new], by simp [incompleteGamma], .inl (.inl rfl)⟩
  | predict _ hc hx hr ih =>
    have hb : IsBase E g _ := .inr ⟨_, _, hr⟩
    have hne := base_cons_ne ok hb
    exact ⟨ih.fin_le, Nat.le_refl _, Nat.le_refl _, by simp, hne, by simp, .inl hb⟩
  | @scan s c t _ hcomp hx hlt ht ih =>
    have hb := incomplete_base ih hcomp
    have hc : c ∈ s.rule.cons := List.mem_of_getElem? hx
    obtain ⟨h1, h2⟩ := scanned_fits ok ih.fin_le hb hc ht
    obtain ⟨h3, h4, h5, _⟩ := scanStates_start ht
    refine ⟨h2, by omega, by omega, by omega, ?_, fun _ => by omega, .inr ⟨s.rule, c, hb, hc, by rw [h3]; exact ht⟩⟩
    intro h0; rw [h0] at h5; simp at h5
  | @complete s c a _ hcomp _ hfin hadv ih1 ih2 =>
    obtain ⟨x, hx, hd, _, _, rfl⟩ := advance_eq hadv
    have h1 : 1 < s.dot := by
      simp only [EState.isComplete, decide_eq_true_eq] at hcomp
      have := List.length_pos_iff.2 ih1.cons_ne
      omega
    have h2 := ih1.moved h1
    have h3 := ih2.start_le
    refine ⟨ih1.fin_le, by simp; omega, by simp, by simp; omega, ih2.cons_ne, fun _ => by simp; omega, ?_⟩
    rcases ih2.kind with hb | ⟨r, c, _, _, hs⟩
    · exact .inl hb
    · have := scanStates_start hs; omega

/-! ## The invariant -/

/-- The states at position `k` that have been treated when the first `j` states at position `i` have been. -/
def processed (chart : Chart A) (i j k : Nat) : List (EState A) :=
  if k < i then chart.states k else if k = i then (chart.states k).take j else []

/-- What has been done when a state has been treated. -/
structure Treated (E : Oracles) (g : Grammar A) (text : Str) (chart : Chart A) (s : EState A) : Prop where
  predicted : s.isComplete = false → ∀ c, s.rule.cons[s.dot - 1]? = some c → ∀ r ∈ g.findRules c.predicate c.args.length,
    ∃ s' ∈ chart.states s.fin, s'.syn = (⟨r, 1, s.fin, s.fin⟩ : EState A).syn
  scanned : s.isComplete = false → s.fin < text.length → ∀ c, s.rule.cons[s.dot - 1]? = some c →
    ∀ t ∈ scanStates (A := A) E text s.fin c, ∃ s' ∈ chart.states t.fin, s'.syn = t.syn
  advanced : s.isComplete = true → ∀ c ∈ chart.states s.start, ∀ a, advance s c = some a → ∃ s' ∈ chart.states s.fin, s'.syn = a.syn

/-- The list of the completed states at an index of the dictionary. -/
def someList (l : List (EState A)) : Option (List (EState A)) := if l = [] then none else some l

/-- The invariant of the loops. -/
structure Inv (E : Oracles) (g : Grammar A) (text : Str) (i j : Nat) (chart : Chart A) : Prop where
  items : ∀ k, ∀ s ∈ chart.states k, Item E g text s ∧ s.fin = k
  nodup : ∀ k, (chart.states k).Pairwise fun s t => s.same E t = false
  start : incompleteGamma E ∈ chart.states 0
  completed : ∀ k, chart.completed k = someList ((processed chart i j k).filter EState.isComplete)
  treated : ∀ k, ∀ s ∈ processed chart i j k, Treated E g text chart s

theorem processed_grown {E : Oracles} {chart chart' : Chart A} {l : List (EState A)} (h : Grown E chart chart' l) {i j k : Nat}
    (hl : ∀ s ∈ l, i ≤ s.fin) (hj : j ≤ (chart.states i).length) : processed chart' i j k = processed chart i j k := by
  obtain ⟨ext, he, hx⟩ := h.states k
  simp only [processed]
  split
  next hk =>
    cases ext with
    | nil => simpa using he
    | cons s ext =>
      obtain ⟨h1, h2⟩ := hx s (by simp)
      have := hl s h1; omega
  next =>
    split
    next hk =>
      subst hk
      rw [he, List.take_append_of_le_length hj]
    next => rfl

theorem frozen {E : Oracles} {chart chart' : Chart A} {l : List (EState A)} (h : Grown E chart chart' l) {i k : Nat}
    (hl : ∀ s ∈ l, i ≤ s.fin) (hk : k < i) : chart'.states k = chart.states k := by
  obtain ⟨ext, he, hx⟩ := h.states k
  cases ext with
  | nil => simpa using he
  | cons s ext =>
    obtain ⟨h1, h2⟩ := hx s (by simp)
    have := hl s h1; omega

theorem Treated.grown {E : Oracles} {g : Grammar A} {text : Str} {chart chart' : Chart A} {l : List (EState A)}
    (h : Grown E chart chart' l) {s : EState A} (hl : ∀ t ∈ l, s.fin ≤ t.fin) (hs : s.isComplete = true → s.start < s.fin)
    (t : Treated E g text chart s) : Treated E g text chart' s := by
  refine ⟨?_, ?_, ?_⟩
  · intro h1 c hc r hr
    obtain ⟨s', hs', he⟩ := t.predicted h1 c hc r hr
    exact ⟨s', h.mem hs', he⟩
  · intro h1 h2 c hc u hu
    obtain ⟨s', hs', he⟩ := t.scanned h1 h2 c hc u hu
    exact ⟨s', h.mem hs', he⟩
  · intro h1 c hc a ha
    rw [frozen h hl (hs h1)] at hc
    obtain ⟨s', hs', he⟩ := t.advanced h1 c hc a ha
    exact ⟨s', h.mem hs', he⟩

theorem processed_mem {chart : Chart A} {i j k : Nat} {s : EState A} (h : s ∈ processed chart i j k) : s ∈ chart.states k ∧ k ≤ i := by
  simp only [processed] at h
  split at h
  · exact ⟨h, by omega⟩
  · split at h
    · exact ⟨List.mem_of_mem_take h, by omega⟩
    · simp at h

theorem processed_succ {chart : Chart A} {i j : Nat} {s : EState A} (h : (chart.states i)[j]? = some s) (k : Nat) :
    processed chart i (j + 1) k = if k = i then processed chart i j k ++ [s] else processed chart i j k := by
  simp only [processed]
  by_cases hk : k = i
  · subst hk
    simp only [Nat.lt_irrefl, if_false, if_true]
    rw [List.take_add_one, h]; rfl
  · simp [hk]

theorem someList_append (l : List (EState A)) (s : EState A) : someList (l ++ [s]) = some ((someList l).getD [] ++ [s]) := by
  cases l <;> simp [someList]

/-- A step that only enqueues keeps the invariant. -/
theorem Inv.grown {E : Oracles} {g : Grammar A} {text : Str} {i j : Nat} {chart chart' : Chart A} (ok : ChartOk E g text)
    (inv : Inv E g text i j chart) {l : List (EState A)} (h : Grown E chart chart' l) (hl : ∀ s ∈ l, i ≤ s.fin)
    (hi : ∀ s ∈ l, Item E g text s) (hj : j ≤ (chart.states i).length) : Inv E g text i j chart' := by
  refine ⟨?_, h.nodup inv.nodup, h.mem inv.start, ?_, ?_⟩
  · intro k s hs
    rcases h.mem_inv hs with hs | ⟨hs, hf⟩
    · exact inv.items k s hs
    · exact ⟨hi s hs, hf⟩
  · intro k
    rw [h.completed, inv.completed, processed_grown h hl hj]
  · intro k s hs
    rw [processed_grown h hl hj] at hs
    obtain ⟨hs', hk⟩ := processed_mem hs
    obtain ⟨hit, hf⟩ := inv.items k s hs'
    refine (inv.treated k s hs).grown h (fun t ht => by have := hl t ht; omega) fun hc => ?_
    have v := hit.valid ok
    refine v.moved ?_
    simp only [EState.isComplete, decide_eq_true_eq] at hc
    have := List.length_pos_iff.2 v.cons_ne
    omega

theorem step_ok {E : Oracles} {g : Grammar A} {text : Str} {i j : Nat} {chart : Chart A} (ok : ChartOk E g text)
    (inv : Inv E g text i j chart) {s : EState A} (hs : (chart.states i)[j]? = some s) :
    ∃ chart', step E g text i chart s = .ok chart' ∧ Inv E g text i (j + 1) chart' := by
  have hmem : s ∈ chart.states i := List.mem_of_getElem? hs
  obtain ⟨hit, hf⟩ := inv.items i s hmem
  have v := hit.valid ok
  have hjl : j < (chart.states i).length := (List.getElem?_eq_some_iff.1 hs).1
  -- the closing argument, common to both cases
  have close : ∀ (chart' : Chart A), Inv E g text i j { chart' with completed := chart.completed } →
      (chart'.states i)[j]? = some s → Treated E g text chart' s →
      (∀ k, chart'.completed k = if k = i ∧ s.isComplete = true then some ((chart.completed k).getD [] ++ [s]) else chart.completed k) →
      Inv E g text i (j + 1) chart' := by
    intro chart' inv' hs' ht hc
    refine ⟨inv'.items, inv'.nodup, inv'.start, ?_, ?_⟩
    · intro k
      have h1 := inv'.completed k
      have h2 : processed { chart' with completed := chart.completed } i j k = processed chart' i j k := rfl
      rw [h2] at h1
      simp only at h1
      rw [hc k, processed_succ hs' k, h1]
      by_cases hk : k = i
      · subst hk
        cases hcomp : s.isComplete with
        | true => simp [List.filter_append, hcomp, someList_append]
        | false => simp [List.filter_append, hcomp]
      · simp [hk]
    · intro k u hu
      rw [processed_succ hs' k] at hu
      have old : ∀ u ∈ processed chart' i j k, Treated E g text chart' u := fun u hu => inv'.treated k u hu |> fun t => ⟨t.1, t.2, t.3⟩
      by_cases hk : k = i
      · rw [if_pos hk] at hu
        rcases List.mem_append.1 hu with hu | hu
        · exact old u hu
        · simp only [List.mem_singleton] at hu
          subst hu; exact ht
      · rw [if_neg hk] at hu
        exact old u hu
  cases hcomp : s.isComplete with
  | false =>
    have hdot : s.dot - 1 < s.rule.cons.length := by
      simp only [EState.isComplete, decide_eq_false_iff_not] at hcomp
      have := v.dot_pos; omega
    obtain ⟨c, hc⟩ : ∃ c, s.rule.cons[s.dot - 1]? = some c := ⟨_, List.getElem?_eq_getElem hdot⟩
    have hcm : c ∈ s.rule.cons := List.mem_of_getElem? hc
    have hb := incomplete_base v hcomp
    obtain ⟨c1, h1, g1⟩ := enqueueAll_ok E (n := text.length)
      ((g.findRules c.predicate c.args.length).map fun rule => (⟨rule, 1, s.fin, s.fin⟩ : EState A)) chart
      (by intro t ht; obtain ⟨r, _, rfl⟩ := List.mem_map.1 ht; exact v.fin_le)
    have inv1 := inv.grown ok g1 (by intro t ht; obtain ⟨r, _, rfl⟩ := List.mem_map.1 ht; simp [hf])
      (by intro t ht; obtain ⟨r, hr, rfl⟩ := List.mem_map.1 ht; exact .predict hit hcomp hc hr) (by omega)
    have hs1 : (c1.states i)[j]? = some s := by
      obtain ⟨ext, he, _⟩ := g1.states i
      rw [he, List.getElem?_append_left hjl, hs]
    have hpred : ∀ c', s.rule.cons[s.dot - 1]? = some c' → ∀ r ∈ g.findRules c'.predicate c'.args.length,
        ∃ s' ∈ c1.states s.fin, s'.syn = (⟨r, 1, s.fin, s.fin⟩ : EState A).syn := by
      intro c' hc' r hr
      rw [hc] at hc'
      simp only [Option.some.injEq] at hc'
      subst hc'
      exact g1.covers ⟨r, 1, s.fin, s.fin⟩ (List.mem_map.2 ⟨r, hr, rfl⟩)
    by_cases hlt : i < text.length
    · obtain ⟨c2, h2, g2⟩ := enqueueAll_ok E (n := text.length) (scanStates E text s.fin c) c1
        (by intro t ht; exact (scanned_fits ok v.fin_le hb hcm ht).2)
      have inv2 := inv1.grown ok g2 (by intro t ht; have := (scanned_fits ok v.fin_le hb hcm ht).1; omega)
        (by intro t ht; exact .scan hit hcomp hc (by omega) ht) (by have := (List.getElem?_eq_some_iff.1 hs1).1; omega)
      have hs2 : (c2.states i)[j]? = some s := by
        obtain ⟨ext, he, _⟩ := g2.states i
        rw [he, List.getElem?_append_left (List.getElem?_eq_some_iff.1 hs1).1, hs1]
      refine ⟨c2, by simp [step, hcomp, predict, hc, h1, Out.bind, hlt, scan, h2], close c2 ?_ hs2 ⟨?_, ?_, ?_⟩ ?_⟩
      · rw [show chart.completed = c2.completed by rw [g2.completed, g1.completed]]; exact inv2
      · intro _ c' hc' r hr
        obtain ⟨s', hs', he⟩ := hpred c' hc' r hr
        exact ⟨s', g2.mem hs', he⟩
      · intro _ _ c' hc' t ht
        rw [hc] at hc'
        simp only [Option.some.injEq] at hc'
        subst hc'
        exact g2.covers t ht
      · intro h; rw [hcomp] at h; simp at h
      · intro k; rw [g2.completed, g1.completed]; simp [hcomp]
    · refine ⟨c1, by simp [step, hcomp, predict, hc, h1, Out.bind, hlt], close c1 ?_ hs1 ⟨?_, ?_, ?_⟩ ?_⟩
      · rw [show chart.completed = c1.completed by rw [g1.completed]]; exact inv1
      · intro _; exact hpred
      · intro _ hlt'; omega
      · intro h; rw [hcomp] at h; simp at h
      · intro k; rw [g1.completed]; simp [hcomp]
  | true =>
    have hmv : s.start < s.fin := by
      refine v.moved ?_
      simp only [EState.isComplete, decide_eq_true_eq] at hcomp
      have := List.length_pos_iff.2 v.cons_ne
      omega
    have hfl := v.fin_le
    have hstates : (chart.indexCompleted s).states = chart.states := rfl
    have hadv : ∀ t ∈ (chart.states s.start).filterMap (advance s), t.fin = i ∧ Item E g text t := by
      intro t ht
      obtain ⟨c, hc, ha⟩ := List.mem_filterMap.1 ht
      obtain ⟨hci, hcf⟩ := inv.items _ c hc
      refine ⟨?_, .complete hit hcomp hci hcf ha⟩
      obtain ⟨x, _, _, _, _, rfl⟩ := advance_eq ha
      exact hf
    obtain ⟨c1, h1, g1⟩ := enqueueAll_ok E (n := text.length) ((chart.states s.start).filterMap (advance s)) (chart.indexCompleted s)
      (by intro t ht; have := (hadv t ht).1; omega)
    -- the same extension without the index
    have g1' : Grown E chart { c1 with completed := chart.completed } ((chart.states s.start).filterMap (advance s)) :=
      ⟨rfl, g1.states, g1.covers, g1.nodup⟩
    have inv1 := inv.grown ok g1' (by intro t ht; have := (hadv t ht).1; omega) (by intro t ht; exact (hadv t ht).2) (by omega)
    have hs1 : (c1.states i)[j]? = some s := by
      obtain ⟨ext, he, _⟩ := g1.states i
      rw [he, hstates, List.getElem?_append_left hjl, hs]
    refine ⟨c1, ?_, close c1 inv1 hs1 ⟨?_, ?_, ?_⟩ ?_⟩
    · simp only [step, hcomp, Bool.not_true, Bool.false_eq_true, if_false, complete]
      rw [if_neg (by omega), hstates, h1]
      simp only [Out.bind]
      rw [if_neg (by omega)]
    · intro h; rw [hcomp] at h; simp at h
    · intro h; rw [hcomp] at h; simp at h
    · intro _ c hc a ha
      rw [frozen g1' (i := i) (by intro t ht; have := (hadv t ht).1; omega) (by omega : s.start < i)] at hc
      obtain ⟨s', hs', he⟩ := g1.covers a (List.mem_filterMap.2 ⟨c, hc, ha⟩)
      rw [(hadv a (List.mem_filterMap.2 ⟨c, hc, ha⟩)).1, ← hf] at hs'
      exact ⟨s', hs', he⟩
    · intro k
      rw [g1.completed]
      simp only [Chart.indexCompleted, hcomp, and_true, hf]

/-! ## Termination -/

/-- All rules in the index of the grammar. -/
def Grammar.all (g : Grammar A) : List (GRule A) := g.flatMap fun kv => kv.2.flatMap Prod.snd

theorem Assoc.mem_of_get {K V : Type} [DecidableEq K] {d : Assoc K V} {k : K} {v : V} (h : d.get k = some v) : (k, v) ∈ d := by
  induction d with
  | nil => simp [Assoc.get] at h
  | cons kv d ih =>
    obtain ⟨k', v'⟩ := kv
    simp only [Assoc.get] at h
    split at h
    next hk => simp only [Option.some.injEq] at h; subst hk; subst h; simp
    next => exact List.mem_cons_of_mem _ (ih h)

theorem IsRule.mem_all {g : Grammar A} {r : GRule A} (h : IsRule g r) : r ∈ g.all := by
  obtain ⟨p, n, h⟩ := h
  simp only [Grammar.findRules] at h
  split at h
  next inner hi =>
    split at h
    next rules hr =>
      exact List.mem_flatMap.2 ⟨_, Assoc.mem_of_get hi, List.mem_flatMap.2 ⟨_, Assoc.mem_of_get hr, h⟩⟩
    next => simp at h
  next => simp at h

/-- A finite list with all states that can occur at a position. -/
def stateUniverse (E : Oracles) (g : Grammar A) (text : Str) (k : Nat) : List (EState A) :=
  let base := gammaRule E :: g.all
  (base.flatMap fun r => (List.range (r.cons.length + 2)).flatMap fun d => (List.range (text.length + 1)).map fun i => ⟨r, d, i, k⟩) ++
  base.flatMap fun r => r.cons.flatMap fun c => (List.range (text.length + 1)).flatMap fun i => scanStates E text i c

theorem mem_universe {E : Oracles} {g : Grammar A} {text : Str} {s : EState A} (v : Valid E g text s) : s ∈ stateUniverse E g text s.fin := by
  have hbase : ∀ r, IsBase E g r → r ∈ gammaRule E :: g.all := by
    rintro r (rfl | h)
    · simp
    · exact List.mem_cons_of_mem _ h.mem_all
  have h1 := v.start_le
  have h2 := v.fin_le
  have h3 := v.dot_le
  rcases v.kind with hb | ⟨r, c, hr, hc, hs⟩
  · refine List.mem_append_left _ (List.mem_flatMap.2 ⟨s.rule, hbase _ hb, List.mem_flatMap.2 ⟨s.dot, by simp; omega,
      List.mem_map.2 ⟨s.start, by simp; omega, rfl⟩⟩⟩)
  · exact List.mem_append_right _ (List.mem_flatMap.2 ⟨r, hbase _ hr, List.mem_flatMap.2 ⟨c, hc, List.mem_flatMap.2 ⟨s.start,
      by simp; omega, hs⟩⟩⟩)

theorem nodup_length_le {α : Type} {l u : List α} (hn : l.Nodup) (h : ∀ x ∈ l, x ∈ u) : l.length ≤ u.length := by
  classical
  induction l generalizing u with
  | nil => simp
  | cons x l ih =>
    obtain ⟨h1, h2⟩ := List.nodup_cons.1 hn
    have hx : x ∈ u := h x (by simp)
    have := ih (u := u.erase x) h2 (fun y hy => by
      have hne : y ≠ x := fun he => h1 (he ▸ hy)
      exact (List.mem_erase_of_ne hne).2 (h y (List.mem_cons_of_mem _ hy)))
    rw [List.length_erase_of_mem hx] at this
    have := List.length_pos_of_mem hx
    simp only [List.length_cons]
    omega

theorem Inv.length_le {E : Oracles} {g : Grammar A} {text : Str} {i j : Nat} {chart : Chart A} (ok : ChartOk E g text)
    (inv : Inv E g text i j chart) (k : Nat) : (chart.states k).length ≤ (stateUniverse E g text k).length := by
  refine nodup_length_le ?_ ?_
  · refine (inv.nodup k).imp ?_
    rintro s t h rfl
    rw [EState.same_refl] at h; simp at h
  · intro s hs
    obtain ⟨hit, rfl⟩ := inv.items k s hs
    exact mem_universe (hit.valid ok)

theorem innerLoop_ok {E : Oracles} {g : Grammar A} {text : Str} {i : Nat} (ok : ChartOk E g text) (fuel : Nat) :
    ∀ (j : Nat) (chart : Chart A), Inv E g text i j chart → (stateUniverse E g text i).length - j ≤ fuel →
    ∃ chart', innerLoop E g text i fuel j chart = .ok chart' ∧ Inv E g text (i + 1) 0 chart' := by
  induction fuel with
  | zero =>
    intro j chart inv hf
    have hl := inv.length_le ok i
    have hj : (chart.states i)[j]? = none := List.getElem?_eq_none (by omega)
    refine ⟨chart, by rw [innerLoop]; simp [hj], ?_⟩
    exact finish inv hj
  | succ fuel ih =>
    intro j chart inv hf
    cases hj : (chart.states i)[j]? with
    | none => exact ⟨chart, by rw [innerLoop]; simp [hj], finish inv hj⟩
    | some s =>
      obtain ⟨c1, h1, inv1⟩ := step_ok ok inv hj
      obtain ⟨c2, h2, inv2⟩ := ih (j + 1) c1 inv1 (by omega)
      exact ⟨c2, by rw [innerLoop]; simp [hj, h1, Out.bind, h2], inv2⟩
where
  finish {i j : Nat} {chart : Chart A} (inv : Inv E g text i j chart) (hj : (chart.states i)[j]? = none) :
      Inv E g text (i + 1) 0 chart := by
    have hp : ∀ k, processed chart (i + 1) 0 k = processed chart i j k := by
      intro k
      simp only [processed]
      by_cases h1 : k < i
      · rw [if_pos (by omega), if_pos h1]
      · by_cases h2 : k = i
        · subst h2
          rw [if_pos (by omega), if_neg h1, if_pos rfl, List.take_of_length_le (List.getElem?_eq_none_iff.1 hj)]
        · rw [if_neg (by omega), if_neg h1, if_neg h2]; simp
    exact ⟨inv.items, inv.nodup, inv.start, fun k => by rw [hp]; exact inv.completed k, fun k s hs => inv.treated k s (by rw [← hp]; exact hs)⟩

/-- The fuel that is enough for all positions up to `k`. -/
def enoughFuel (E : Oracles) (g : Grammar A) (text : Str) : Nat → Nat
  | 0 => 0
  | k + 1 => max (stateUniverse E g text k).length (enoughFuel E g text k)

theorem le_enoughFuel (E : Oracles) (g : Grammar A) (text : Str) {i k : Nat} (h : i < k) :
    (stateUniverse E g text i).length ≤ enoughFuel E g text k := by
  induction k with
  | zero => omega
  | succ k ih =>
    simp only [enoughFuel]
    by_cases hi : i = k
    · subst hi; omega
    · have := ih (by omega); omega

theorem outerLoop_ok {E : Oracles} {g : Grammar A} {text : Str} (ok : ChartOk E g text) {fuel : Nat}
    (hf : enoughFuel E g text (text.length + 1) ≤ fuel) (k : Nat) :
    ∀ (i : Nat) (chart : Chart A), i + k = text.length + 1 → Inv E g text i 0 chart →
    ∃ chart', outerLoop E g text fuel k i chart = .ok chart' ∧ Inv E g text (text.length + 1) 0 chart' := by
  induction k with
  | zero => intro i chart hi inv; exact ⟨chart, rfl, by rw [← hi]; exact inv⟩
  | succ k ih =>
    intro i chart hi inv
    obtain ⟨c1, h1, inv1⟩ := innerLoop_ok ok fuel 0 chart inv (by
      have := le_enoughFuel E g text (i := i) (k := text.length + 1) (by omega)
      omega)
    obtain ⟨c2, h2, inv2⟩ := ih (i + 1) c1 (by omega) inv1
    exact ⟨c2, by simp [outerLoop, h1, Out.bind, h2], inv2⟩

theorem initial_inv (E : Oracles) (g : Grammar A) (text : Str) :
    ∃ chart : Chart A, (Chart.new).enqueue E text.length (incompleteGamma E) 0 = .ok chart ∧ Inv E g text 0 0 chart := by
  refine ⟨_, by simp [Chart.enqueue, Chart.new]; rfl, ?_⟩
  refine ⟨?_, ?_, by simp, ?_, ?_⟩
  · intro k s hs
    simp only at hs
    split at hs
    next hk => simp only [List.mem_singleton] at hs; subst hs; exact ⟨.init, hk.symm⟩
    next => simp at hs
  · intro k; simp only; split <;> simp
  · intro k; simp only [processed]; split
    · omega
    · simp [someList]
  · intro k s hs
    simp only [processed] at hs
    split at hs
    · omega
    · simp at hs

theorem buildChart_ok {E : Oracles} {g : Grammar A} {text : Str} (ok : ChartOk E g text) {fuel : Nat}
    (hf : enoughFuel E g text (text.length + 1) ≤ fuel) :
    ∃ chart, buildChart E fuel g text = .ok chart ∧ Inv E g text (text.length + 1) 0 chart := by
  obtain ⟨c, h, inv⟩ := initial_inv E g text
  obtain ⟨c', h', inv'⟩ := outerLoop_ok ok hf (text.length + 1) 0 c (by omega) inv
  exact ⟨c', by simp [buildChart, h, Out.bind, h'], inv'⟩

/-! ## Fuel does not matter -/

theorem innerLoop_mono {E : Oracles} {g : Grammar A} {text : Str} {i : Nat} {fuel fuel' : Nat} (h : fuel ≤ fuel') :
    ∀ {j : Nat} {chart chart' : Chart A}, innerLoop E g text i fuel j chart = .ok chart' → innerLoop E g text i fuel' j chart = .ok chart' := by
  induction fuel generalizing fuel' with
  | zero =>
    intro j chart chart' hr
    rw [innerLoop] at hr ⊢
    cases hj : (chart.states i)[j]? with
    | none => rw [hj] at hr; exact hr
    | some s => rw [hj] at hr; simp at hr
  | succ fuel ih =>
    intro j chart chart' hr
    obtain ⟨f, rfl⟩ : ∃ f, fuel' = f + 1 := ⟨fuel' - 1, by omega⟩
    rw [innerLoop] at hr ⊢
    cases hj : (chart.states i)[j]? with
    | none => rw [hj] at hr; exact hr
    | some s =>
      rw [hj] at hr
      simp only at hr ⊢
      cases hs : step E g text i chart s with
      | ok c => rw [hs] at hr; exact ih (by omega) hr
      | err e => rw [hs] at hr; simp [Out.bind] at hr
      | oof => rw [hs] at hr; simp [Out.bind] at hr

theorem outerLoop_mono {E : Oracles} {g : Grammar A} {text : Str} {fuel fuel' : Nat} (h : fuel ≤ fuel') {k : Nat} :
    ∀ {i : Nat} {chart chart' : Chart A}, outerLoop E g text fuel k i chart = .ok chart' → outerLoop E g text fuel' k i chart = .ok chart' := by
  induction k with
  | zero => intro i chart chart' hr; exact hr
  | succ k ih =>
    intro i chart chart' hr
    simp only [outerLoop] at hr ⊢
    cases hs : innerLoop E g text i fuel 0 chart with
    | ok c => rw [hs] at hr; rw [innerLoop_mono h hs]; exact ih hr
    | err e => rw [hs] at hr; simp [Out.bind] at hr
    | oof => rw [hs] at hr; simp [Out.bind] at hr

theorem buildChart_mono {E : Oracles} {g : Grammar A} {text : Str} {fuel fuel' : Nat} (h : fuel ≤ fuel') {chart : Chart A}
    (hr : buildChart E fuel g text = .ok chart) : buildChart E fuel' g text = .ok chart := by
  obtain ⟨c, hc, _⟩ := initial_inv E g text
  simp only [buildChart, hc, Out.bind] at hr ⊢
  exact outerLoop_mono h hr

/-- Whatever fuel the chart was built with, it satisfies the invariant. -/
theorem buildChart_inv {E : Oracles} {g : Grammar A} {text : Str} (ok : ChartOk E g text) {fuel : Nat} {chart : Chart A}
    (hr : buildChart E fuel g text = .ok chart) : Inv E g text (text.length + 1) 0 chart := by
  obtain ⟨c, hc, inv⟩ := buildChart_ok ok (fuel := max fuel (enoughFuel E g text (text.length + 1))) (by omega)
  rw [buildChart_mono (by omega) hr] at hc
  simp only [Out.ok.injEq] at hc
  subst hc; exact inv

/-! ## The finished chart -/

/-- What is known of a finished chart. -/
structure Finished (E : Oracles) (g : Grammar A) (text : Str) (chart : Chart A) : Prop where
  items : ∀ k, ∀ s ∈ chart.states k, Item E g text s ∧ s.fin = k
  nodup : ∀ k, (chart.states k).Pairwise fun s t => s.same E t = false
  start : incompleteGamma E ∈ chart.states 0
  completed : ∀ k, chart.completed k = someList ((chart.states k).filter EState.isComplete)
  treated : ∀ k, ∀ s ∈ chart.states k, Treated E g text chart s

theorem Inv.finished {E : Oracles} {g : Grammar A} {text : Str} {chart : Chart A} (ok : ChartOk E g text)
    (inv : Inv E g text (text.length + 1) 0 chart) : Finished E g text chart := by
  have hp : ∀ k, processed chart (text.length + 1) 0 k = chart.states k := by
    intro k
    simp only [processed]
    split
    · rfl
    next hk =>
      cases hs : chart.states k with
      | nil => simp
      | cons s l =>
        obtain ⟨hit, hf⟩ := inv.items k s (by simp [hs])
        have := (hit.valid ok).fin_le
        omega
  exact ⟨inv.items, inv.nodup, inv.start, fun k => by rw [inv.completed, hp], fun k s hs => inv.treated k s (by rw [hp]; exact hs)⟩

/-- Everything that can be deduced is in the chart, up to `__eq__`. -/
theorem Finished.complete {E : Oracles} {g : Grammar A} {text : Str} {chart : Chart A} (f : Finished E g text chart) {s : EState A}
    (h : Item E g text s) : ∃ s' ∈ chart.states s.fin, s'.syn = s.syn := by
  have comp : ∀ {s s' : EState A}, s'.syn = s.syn → s'.isComplete = s.isComplete := by
    intro s s' h
    simp only [EState.syn, Prod.mk.injEq] at h
    simp [EState.isComplete, syn_length h.1, h.2.1]
  induction h with
  | init => exact ⟨_, f.start, rfl⟩
  | @predict s c r hi hc hx hr ih =>
    obtain ⟨s', hs', he⟩ := ih
    have heq := he
    simp only [EState.syn, Prod.mk.injEq] at he
    obtain ⟨c', hx', hcc⟩ := syn_cons he.1.symm _ hx
    rw [← he.2.1] at hx'
    have hr' : r ∈ g.findRules c'.predicate c'.args.length := by
      simp only [Constituent.syn, Prod.mk.injEq] at hcc
      rw [← hcc.1, ← hcc.2.1]; exact hr
    have := (f.treated _ s' hs').predicted (by rw [comp heq]; exact hc) c' hx' _ hr'
    rw [he.2.2.2] at this
    exact this
  | @scan s c t hi hc hx hlt ht ih =>
    obtain ⟨s', hs', he⟩ := ih
    have heq := he
    simp only [EState.syn, Prod.mk.injEq] at he
    obtain ⟨c', hx', hcc⟩ := syn_cons he.1.symm _ hx
    rw [← he.2.1] at hx'
    simp only [Constituent.syn, Prod.mk.injEq] at hcc
    have hsc := (f.treated _ s' hs').scanned (by rw [comp heq]; exact hc) (by rw [he.2.2.2]; exact hlt) c' hx'
    rw [he.2.2.2] at hsc
    -- the states scanned for c and for c' are the same up to the names of the arguments
    have : ∃ t' ∈ scanStates (A := A) E text s.fin c', t'.syn = t.syn ∧ t'.fin = t.fin := by
      have hsyn : ∀ w (sem : RuleSem A), (scannedState E c' s.fin w sem).syn = (scannedState E c s.fin w sem).syn := by
        intro w sem
        simp [scannedState, EState.syn, GRule.syn, GRule.new, Constituent.syn, hcc]
      simp only [scanStates, ← hcc.1, ← hcc.2.2] at ht ⊢
      rcases List.mem_append.1 ht with ht | ht
      · split at ht
        next hp =>
          cases hm : performRegexp E text s.fin c.predicate with
          | none => simp [hm] at ht
          | some word =>
            simp only [hm, List.mem_map] at ht
            obtain ⟨l, hl, rfl⟩ := ht
            refine ⟨scannedState E c' s.fin (word.take (l + 1)) (.word (word.take (l + 1))), ?_, hsyn _ _, rfl⟩
            exact List.mem_append_left _ (by rw [if_pos hp]; exact List.mem_map.2 ⟨l, hl, rfl⟩)
        next => simp at ht
      · split at ht
        next hp =>
          split at ht
          next hr =>
            simp only [List.mem_singleton] at ht
            subst ht
            refine ⟨scannedState E c' s.fin c.predicate .none, ?_, hsyn _ _, rfl⟩
            exact List.mem_append_right _ (by rw [if_pos hp, if_pos hr, hcc.1]; simp)
          next => simp at ht
        next => simp at ht
    obtain ⟨t', ht', h1, h2⟩ := this
    obtain ⟨u, hu, hue⟩ := hsc t' ht'
    exact ⟨u, by rw [← h2]; exact hu, hue.trans h1⟩
  | @complete s c a hi hc hci hfin hadv ih1 ih2 =>
    obtain ⟨s', hs', he⟩ := ih1
    obtain ⟨c', hc', hce⟩ := ih2
    have heq := he
    simp only [EState.syn, Prod.mk.injEq] at he hce
    obtain ⟨x, hx, hd, h1, h2, rfl⟩ := advance_eq hadv
    obtain ⟨x', hx', hxx⟩ := syn_cons hce.1.symm _ hx
    rw [← hce.2.1] at hx'
    have hante : s'.rule.ante.syn = s.rule.ante.syn := (Prod.mk.inj he.1).1
    simp only [Constituent.syn, Prod.mk.injEq] at hxx hante
    have hadv' : advance s' c' = some ⟨c'.rule, c'.dot + 1, c'.start, s'.fin⟩ := by
      simp only [advance]
      rw [if_neg (by rw [hce.2.1, syn_length hce.1]; omega), hx']
      simp only
      rw [if_neg (by rw [← hxx.1, h1, hante.1]; simp), if_neg (by rw [← hxx.2.2, h2, hante.2.2]; simp)]
    rw [hfin, ← he.2.2.1] at hc'
    have := (f.treated _ s' hs').advanced (by rw [comp heq]; exact hc) c' hc' _ hadv'
    rw [he.2.2.2] at this
    obtain ⟨u, hu, hue⟩ := this
    exact ⟨u, hu, hue.trans (by simp [EState.syn, hce])⟩

end Verif
