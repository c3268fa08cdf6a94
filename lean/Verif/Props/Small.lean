import Verif.Small

/-!
# C35, C57, C58
-/

namespace Verif

/-! ## C57 -/

section
variable {α : Type} [DecidableEq α]

/-- Operations on a set. -/
inductive SetOp (α : Type) where
  | add (x : α)
  | discard (x : α)
  | clear

/-- The set after a history. -/
def runSet (h : List (SetOp α)) : OSet α :=
  h.foldl (fun s op => match op with
    | .add x => OSet.add x s
    | .discard x => OSet.discard x s
    | .clear => OSet.clear) []

/-- The operation removes `x`. -/
def SetOp.Removes (x : α) : SetOp α → Prop
  | .add _ => False
  | .discard y => y = x
  | .clear => True

/-- Specification: in the history `h` the element `x` was added at time `t`, was not in the set before (every earlier addition has been
undone before `t`), and has not been removed since. -/
structure Born (h : List (SetOp α)) (x : α) (t : Nat) : Prop where
  added : h[t]? = some (.add x)
  fresh : ∀ t' < t, h[t']? = some (.add x) → ∃ u op, t' < u ∧ u < t ∧ h[u]? = some op ∧ op.Removes x
  stays : ∀ u op, t < u → h[u]? = some op → ¬ op.Removes x

omit [DecidableEq α] in
theorem Born.lt {h : List (SetOp α)} {x : α} {t : Nat} (b : Born h x t) : t < h.length :=
  (List.getElem?_eq_some_iff.1 b.added).1

omit [DecidableEq α] in
theorem Born.unique {h : List (SetOp α)} {x : α} {t t' : Nat} (b : Born h x t) (b' : Born h x t') : t = t' := by
  rcases Nat.lt_trichotomy t t' with hlt | rfl | hlt
  · obtain ⟨u, op, h1, h2, h3, h4⟩ := b'.fresh t hlt b.added
    exact absurd h4 (b.stays u op h1 h3)
  · rfl
  · obtain ⟨u, op, h1, h2, h3, h4⟩ := b.fresh t' hlt b'.added
    exact absurd h4 (b'.stays u op h1 h3)

theorem born_append {h : List (SetOp α)} {op : SetOp α} {x : α} {t : Nat} :
    Born (h ++ [op]) x t ↔ (Born h x t ∧ ¬ op.Removes x) ∨ (t = h.length ∧ op = .add x ∧ ∀ t', ¬ Born h x t') := by
  have hget : ∀ u, u < h.length → (h ++ [op])[u]? = h[u]? := fun u hu => List.getElem?_append_left hu
  have hlast : (h ++ [op])[h.length]? = some op := by simp
  constructor
  · intro b
    have hlt := b.lt
    simp only [List.length_append, List.length_cons, List.length_nil] at hlt
    by_cases ht : t < h.length
    · refine .inl ⟨⟨by rw [← hget t ht]; exact b.added, ?_, ?_⟩, ?_⟩
      · intro t' ht' ha
        obtain ⟨u, o, h1, h2, h3, h4⟩ := b.fresh t' ht' (by rw [hget t' (by omega)]; exact ha)
        exact ⟨u, o, h1, h2, by rw [← hget u (by omega)]; exact h3, h4⟩
      · intro u o hu hg
        have : u < h.length := (List.getElem?_eq_some_iff.1 hg).1
        exact b.stays u o hu (by rw [hget u this]; exact hg)
      · exact b.stays h.length op ht hlast
    · have : t = h.length := by omega
      subst this
      refine .inr ⟨rfl, ?_, ?_⟩
      · have := b.added; rw [hlast] at this; simpa using this
      · intro t' b'
        obtain ⟨u, o, h1, h2, h3, h4⟩ := b.fresh t' b'.lt (by rw [hget t' b'.lt]; exact b'.added)
        exact b'.stays u o h1 (by rw [← hget u h2]; exact h3) h4
  · rintro (⟨b, hop⟩ | ⟨rfl, rfl, hn⟩)
    · have ht := b.lt
      refine ⟨by rw [hget t ht]; exact b.added, ?_, ?_⟩
      · intro t' ht' ha
        obtain ⟨u, o, h1, h2, h3, h4⟩ := b.fresh t' ht' (by rw [← hget t' (by omega)]; exact ha)
        exact ⟨u, o, h1, h2, by rw [hget u (by omega)]; exact h3, h4⟩
      · intro u o hu hg
        have hul : u < h.length + 1 := by simpa using (List.getElem?_eq_some_iff.1 hg).1
        by_cases hu' : u < h.length
        · exact b.stays u o hu (by rw [← hget u hu']; exact hg)
        · have : u = h.length := by omega
          subst this
          rw [hlast] at hg
          simp only [Option.some.injEq] at hg
          subst hg; exact hop
    · refine ⟨hlast, ?_, ?_⟩
      · intro t' ht' ha
        rw [hget t' ht'] at ha
        -- the last addition that was not undone would be a birth
        refine Classical.byContradiction fun hno' => ?_
        have hno : ∀ u op, t' < u → u < h.length → h[u]? = some op → ¬ op.Removes x := fun u o h1 h2 h3 h4 =>
          hno' ⟨u, o, h1, h2, by rw [hget u h2]; exact h3, h4⟩
        clear hget hlast hno'
        -- the earliest addition after which nothing removes
        induction t' using Nat.strongRecOn with
        | ind t' ih =>
          by_cases hf : ∀ t'' < t', h[t'']? = some (.add x) → ∃ u op, t'' < u ∧ u < t' ∧ h[u]? = some op ∧ op.Removes x
          · exact hn t' ⟨ha, hf, fun u o h1 h2 => hno u o h1 (List.getElem?_eq_some_iff.1 h2).1 h2⟩
          · simp only [Classical.not_forall] at hf
            obtain ⟨t'', h1, h2, h3⟩ := hf
            refine ih t'' h1 (by omega) h2 ?_
            intro u o hu1 hu2 hu3 hu4
            by_cases hut : u < t'
            · exact h3 ⟨u, o, hu1, hut, hu3, hu4⟩
            · by_cases hut' : u = t'
              · subst hut'
                rw [ha] at hu3
                simp only [Option.some.injEq] at hu3
                subst hu3; exact hu4
              · exact hno u o (by omega) hu2 hu3 hu4
      · intro u o hu hg
        have hul : u < h.length + 1 := by simpa using (List.getElem?_eq_some_iff.1 hg).1
        omega

/-- **C57** After any history the set contains exactly the elements that were added and not removed since, each once, in the order in
which they were (last) newly added. -/
theorem C57_ordered_set (h : List (SetOp α)) :
    (∀ x, (runSet h).contains x = true ↔ ∃ t, Born h x t) ∧ (runSet h).iter.Nodup ∧
    (runSet h).iter.Pairwise fun x y => ∀ t u, Born h x t → Born h y u → t < u := by
  have hrev : ∀ h' : List (SetOp α), (∀ x, x ∈ runSet h'.reverse ↔ ∃ t, Born h'.reverse x t) ∧ (runSet h'.reverse).Nodup ∧
      (runSet h'.reverse).Pairwise fun x y => ∀ t u, Born h'.reverse x t → Born h'.reverse y u → t < u := by
    intro h'
    induction h' with
    | nil =>
      refine ⟨fun x => ?_, by simp [runSet], by simp [runSet]⟩
      simp only [List.reverse_nil, runSet, List.foldl_nil, List.not_mem_nil, false_iff, not_exists]
      intro t b
      exact absurd b.lt (by simp)
    | cons op h' ih =>
      rw [List.reverse_cons]
      generalize h'.reverse = h at ih
      obtain ⟨ih1, ih2, ih3⟩ := ih
      have hrun : runSet (h ++ [op]) = (match op with
          | .add x => OSet.add x (runSet h)
          | .discard x => OSet.discard x (runSet h)
          | .clear => OSet.clear) := by simp [runSet, List.foldl_append]
      rw [hrun]
      cases op with
      | clear =>
        refine ⟨fun x => ?_, by simp [OSet.clear], by simp [OSet.clear]⟩
        simp [OSet.clear, born_append, SetOp.Removes]
      | discard y =>
        refine ⟨fun x => ?_, ?_, ?_⟩
        · have e : x ≠ y ↔ ¬ y = x := ⟨Ne.symm, Ne.symm⟩
          simp only [OSet.discard, List.mem_filter, ih1, decide_eq_true_eq, born_append, SetOp.Removes, reduceCtorEq, false_and,
            and_false, or_false, e, exists_and_right]
        · exact ih2.sublist List.filter_sublist
        · refine (ih3.sublist List.filter_sublist).imp ?_
          intro a b hab t u ht hu
          rw [born_append] at ht hu
          simp only [reduceCtorEq, false_and, and_false, or_false] at ht hu
          exact hab t u ht.1 hu.1
      | add y =>
        simp only [OSet.add]
        by_cases hy : y ∈ runSet h
        · rw [if_pos hy]
          obtain ⟨ty, hty⟩ := (ih1 y).1 hy
          have key : ∀ x t, Born (h ++ [.add y]) x t ↔ Born h x t := by
            intro x t
            rw [born_append]
            simp only [SetOp.Removes, not_false_eq_true, and_true, SetOp.add.injEq]
            constructor
            · rintro (hb | ⟨_, rfl, hn⟩)
              · exact hb
              · exact absurd hty (hn ty)
            · exact .inl
          exact ⟨fun x => by simp only [key]; exact ih1 x, ih2, by simp only [key]; exact ih3⟩
        · rw [if_neg hy]
          have hny : ∀ t, ¬ Born h y t := fun t ht => hy ((ih1 y).2 ⟨t, ht⟩)
          have key : ∀ x t, Born (h ++ [.add y]) x t ↔ Born h x t ∨ (x = y ∧ t = h.length) := by
            intro x t
            rw [born_append]
            simp only [SetOp.Removes, not_false_eq_true, and_true, SetOp.add.injEq]
            constructor
            · rintro (hb | ⟨rfl, rfl, hn⟩)
              · exact .inl hb
              · exact .inr ⟨rfl, rfl⟩
            · rintro (hb | ⟨rfl, rfl⟩)
              · exact .inl hb
              · exact .inr ⟨rfl, rfl, hny⟩
          refine ⟨fun x => ?_, ?_, ?_⟩
          · simp only [List.mem_append, List.mem_singleton, key, exists_or, ih1]
            simp
          · rw [List.nodup_append]
            refine ⟨ih2, by simp, ?_⟩
            intro a ha b hb
            simp only [List.mem_singleton] at hb
            subst hb
            rintro rfl; exact hy ha
          · rw [List.pairwise_append]
            refine ⟨?_, by simp, ?_⟩
            · refine ih3.imp_of_mem ?_
              intro a b ha hb hab t u ht hu
              rw [key] at ht hu
              rcases ht with ht | ⟨rfl, _⟩
              · rcases hu with hu | ⟨rfl, _⟩
                · exact hab t u ht hu
                · exact absurd hb hy
              · exact absurd ha hy
            · intro a ha b hb t u ht hu
              simp only [List.mem_singleton] at hb
              subst hb
              rw [key] at ht hu
              rcases ht with ht | ⟨rfl, _⟩
              · rcases hu with hu | ⟨_, rfl⟩
                · exact absurd hu (hny u)
                · exact ht.lt
              · exact absurd ha hy
  have := hrev h.reverse
  rw [List.reverse_reverse] at this
  obtain ⟨h1, h2, h3⟩ := this
  exact ⟨fun x => by rw [← h1 x]; simp [OSet.contains], h2, h3⟩

omit [DecidableEq α] in
/-- **C57** Indexing agrees with iteration, and the length is the number of items. -/
theorem C57_index (s : OSet α) (i : Nat) : s.getItem i = s.iter[i]? ∧ (i < s.len ↔ (s.getItem i).isSome = true) := by
  have : s.getItem i = s.iter[i]? := by
    simp only [OSet.getItem, OSet.iter]
    rw [List.head?_take]
    simp [List.head?_drop]
  refine ⟨this, ?_⟩
  rw [this]
  simp [OSet.len, OSet.iter]

/-- **C57** A new set has the elements of the list it was made from: it is the set after adding them. -/
theorem C57_new (xs : List α) : OSet.new xs = runSet (xs.map .add) := by
  simp [OSet.new, runSet, List.foldl_map]

example : runSet [.add 3, .add 1, .add 3, .discard 3, .add 2, .add 3] = [1, 2, 3] := by decide

example : Born [SetOp.add 3, .discard 3, .add 2, .add 3] 3 3 := by
  refine ⟨rfl, ?_, ?_⟩
  · intro t' ht h
    have : t' = 0 ∨ t' = 1 ∨ t' = 2 := by omega
    rcases this with rfl | rfl | rfl
    · exact ⟨1, .discard 3, by omega, by omega, rfl, rfl⟩
    · simp at h
    · simp at h
  · intro u op hu h
    have := (List.getElem?_eq_some_iff.1 h).1
    simp at this; omega

end

/-! ## C58 -/

theorem takeItems_eq (k : Nat) (r : RIter) :
    (r.takeItems k).1 = (List.range (min k (r.number - r.index))).map fun i => r.single ++ showNat (r.index + 1 + i) := by
  induction k generalizing r with
  | zero => simp [RIter.takeItems]
  | succ k ih =>
    simp only [RIter.takeItems, RIter.next]
    by_cases h : r.index + 1 > r.number
    · simp only [h, if_true]
      have : min (k + 1) (r.number - r.index) = 0 := by omega
      simp [this]
    · simp only [h, if_false]
      rw [ih]
      have : min (k + 1) (r.number - r.index) = min k (r.number - (r.index + 1)) + 1 := by omega
      rw [this, List.range_succ_eq_map]
      simp only [List.map_cons, List.map_map, Nat.add_zero, List.cons.injEq, true_and]
      apply List.map_congr_left
      intro i _
      simp only [Function.comp]
      congr 2
      omega

/-- **C58** Iterating over a result iterator of size `n`, with or without leaving the loop early, yields the first of `n` items, and
all of them if the loop is not left early. -/
theorem C58_items (single : List Char) (n k : Nat) :
    ((RIter.new single n).takeItems k).1.length = min k n ∧ ((RIter.new single n).takeItems k).1.Nodup ∧
    ((RIter.new single n).takeItems k).1 = ((RIter.new single n).takeItems n).1.take k := by
  rw [takeItems_eq, takeItems_eq]
  simp only [RIter.new, Nat.sub_zero, Nat.min_self]
  refine ⟨by simp, ?_, ?_⟩
  · have hp : (List.range (min k n)).Pairwise fun a b => single ++ showNat (0 + 1 + a) ≠ single ++ showNat (0 + 1 + b) := by
      refine List.nodup_range.imp ?_
      intro a b hab h
      have := showNat_injective (List.append_cancel_left h)
      omega
    exact List.pairwise_map.2 hp
  · rw [← List.map_take, List.take_range]

/-- **C58** The length does not change while iterating. -/
theorem C58_len (r : RIter) (k : Nat) : (r.takeItems k).2.len = r.len := by
  induction k generalizing r with
  | zero => rfl
  | succ k ih =>
    simp only [RIter.takeItems, RIter.next]
    by_cases h : r.index + 1 > r.number
    · simp only [h, if_true]; rfl
    · simp only [h, if_false]; exact ih _

/-- **C58** Limit: a second loop over the same iterator yields nothing. -/
theorem C58_second_loop (single : List Char) (n k k' : Nat) (h : n < k) :
    (((RIter.new single n).takeItems k).2.takeItems k').1 = [] := by
  have hidx : ∀ k (r : RIter), r.index ≤ r.number → r.number - r.index < k →
      (r.takeItems k).2.index = r.number + 1 ∧ (r.takeItems k).2.number = r.number := by
    intro k
    induction k with
    | zero => intro r _ h; omega
    | succ k ih =>
      intro r hle h
      simp only [RIter.takeItems, RIter.next]
      by_cases h' : r.index + 1 > r.number
      · simp only [h', if_true]
        exact ⟨by omega, trivial⟩
      · simp only [h', if_false]
        have := ih { r with index := r.index + 1 } (by simp; omega) (by simp; omega)
        exact this
  obtain ⟨h1, h2⟩ := hidx k (RIter.new single n) (by simp [RIter.new]) (by simpa [RIter.new] using h)
  rw [takeItems_eq, h1, h2]
  simp

example : ((RIter.new ['x'] 3).takeItems 10).1 = [['x', '1'], ['x', '2'], ['x', '3']] := by decide +kernel

/-! ## C35 -/

/-- A text given by its words and the white space between them: `w0 s1 w1 s2 w2 ...`. -/
def weave (w0 : List Char) : List (List Char × List Char) → List Char
  | [] => w0
  | (s, w) :: rest => w0 ++ s ++ weave w rest

/-- The pieces are what they should be: white space is not empty, words contain no white space, and only the first and the last word
may be empty. -/
def WordsOk (w0 : List Char) : List (List Char × List Char) → Prop
  | [] => ∀ c ∈ w0, isSpace c = false
  | (s, w) :: rest => (∀ c ∈ w0, isSpace c = false) ∧ s ≠ [] ∧ (∀ c ∈ s, isSpace c = true) ∧ (w ≠ [] ∨ rest = []) ∧ WordsOk w rest

theorem normalizeFrom_word {w : List Char} (hw : ∀ c ∈ w, isSpace c = false) (b : Bool) (rest : List Char) (hne : w ≠ []) :
    normalizeFrom b (w ++ rest) = w ++ normalizeFrom false rest := by
  induction w generalizing b with
  | nil => exact absurd rfl hne
  | cons c w ih =>
    simp only [List.cons_append, normalizeFrom, hw c (by simp), Bool.false_eq_true, if_false, List.cons.injEq, true_and]
    cases w with
    | nil => rfl
    | cons c' w => exact ih (fun c hc => hw c (List.mem_cons_of_mem _ hc)) false (by simp)

theorem normalizeFrom_space_true {s : List Char} (hs : ∀ c ∈ s, isSpace c = true) (rest : List Char) :
    normalizeFrom true (s ++ rest) = normalizeFrom true rest := by
  induction s with
  | nil => rfl
  | cons c s ih =>
    simp only [List.cons_append, normalizeFrom, hs c (by simp), if_true]
    exact ih fun c hc => hs c (List.mem_cons_of_mem _ hc)

/-- **C35** The normalised text consists of the same words with single spaces in between. -/
theorem C35_words (w0 : List Char) (rest : List (List Char × List Char)) (h : WordsOk w0 rest) :
    normalizeSpace (weave w0 rest) = weave w0 (rest.map fun sw => ([' '], sw.2)) := by
  have key : ∀ (rest : List (List Char × List Char)) (w0 : List Char) (b : Bool), WordsOk w0 rest → (b = true → w0 ≠ [] ∨ rest = []) →
      normalizeFrom b (weave w0 rest) = weave w0 (rest.map fun sw => ([' '], sw.2)) := by
    intro rest
    induction rest with
    | nil =>
      intro w0 b h _
      simp only [weave, List.map_nil]
      by_cases hw : w0 = []
      · subst hw; cases b <;> rfl
      · have := normalizeFrom_word h b [] hw
        simpa [normalizeFrom] using this
    | cons sw rest ih =>
      obtain ⟨s, w⟩ := sw
      intro w0 b h hb
      obtain ⟨h0, hs, hsp, hw, hr⟩ := h
      have hmid : normalizeFrom false (s ++ weave w rest) = ' ' :: weave w (rest.map fun sw => ([' '], sw.2)) := by
        cases s with
        | nil => exact absurd rfl hs
        | cons c s =>
          simp only [List.cons_append, normalizeFrom, hsp c (by simp), if_true, Bool.false_eq_true, if_false, List.cons.injEq,
            true_and]
          rw [normalizeFrom_space_true fun c hc => hsp c (List.mem_cons_of_mem _ hc)]
          exact ih w true hr fun _ => hw
      simp only [weave, List.map_cons, List.append_assoc]
      by_cases hw0 : w0 = []
      · subst hw0
        cases b with
        | false => simpa using hmid
        | true => rcases hb rfl with h | h <;> simp at h
      · rw [normalizeFrom_word h0 b _ hw0, hmid]; rfl
  exact key rest w0 false h (by simp)

/-- **C35** Texts that differ only in the amount or kind of white space between their words are parsed identically. -/
theorem C35_same_words {R : Type} (parse : List Char → R) (w0 : List Char) (words : List (List Char)) (ss ss' : List (List Char))
    (hl : ss.length = words.length) (hl' : ss'.length = words.length)
    (h : WordsOk w0 (ss.zip words)) (h' : WordsOk w0 (ss'.zip words)) :
    parse (normalizeSpace (weave w0 (ss.zip words))) = parse (normalizeSpace (weave w0 (ss'.zip words))) := by
  rw [C35_words w0 _ h, C35_words w0 _ h']
  have : ∀ ss : List (List Char), ss.length = words.length →
      (ss.zip words).map (fun sw => ([' '], sw.2)) = words.map fun w => ([' '], w) := by
    intro ss hss
    rw [show (fun sw : List Char × List Char => ([' '], sw.2)) = (fun w => ([' '], w)) ∘ Prod.snd from rfl, ← List.map_map,
      List.map_snd_zip (by omega)]
  rw [this ss hl, this ss' hl']

/-- Every text can be taken apart in this way. -/
theorem weave_exists (text : List Char) : ∃ w0 rest, WordsOk w0 rest ∧ weave w0 rest = text := by
  induction text with
  | nil => exact ⟨[], [], by simp [WordsOk], rfl⟩
  | cons c text ih =>
    obtain ⟨w0, rest, hok, rfl⟩ := ih
    cases hc : isSpace c with
    | false =>
      refine ⟨c :: w0, rest, ?_, ?_⟩
      · cases rest with
        | nil =>
          intro x hx
          rcases List.mem_cons.1 hx with rfl | hx
          · exact hc
          · exact hok x hx
        | cons sw rest =>
          obtain ⟨h0, h1⟩ := hok
          refine ⟨?_, h1⟩
          intro x hx
          rcases List.mem_cons.1 hx with rfl | hx
          · exact hc
          · exact h0 x hx
      · cases rest with
        | nil => rfl
        | cons sw rest => simp [weave]
    | true =>
      by_cases hw : w0 = []
      · subst hw
        cases rest with
        | nil => exact ⟨[], [([c], [])], ⟨by simp, by simp, by simpa using hc, .inr rfl, by simp [WordsOk]⟩, rfl⟩
        | cons sw rest =>
          obtain ⟨s, w⟩ := sw
          obtain ⟨h0, hs, hsp, hw, hr⟩ := hok
          refine ⟨[], (c :: s, w) :: rest, ⟨by simp, by simp, ?_, hw, hr⟩, by simp [weave]⟩
          intro x hx
          rcases List.mem_cons.1 hx with rfl | hx
          · exact hc
          · exact hsp x hx
      · exact ⟨[], ([c], w0) :: rest, ⟨by simp, by simp, by simpa using hc, .inl hw, hok⟩, by simp [weave]⟩

theorem wordsOk_single {w0 : List Char} {rest : List (List Char × List Char)} (h : WordsOk w0 rest) :
    WordsOk w0 (rest.map fun sw => ([' '], sw.2)) := by
  induction rest generalizing w0 with
  | nil => exact h
  | cons sw rest ih =>
    obtain ⟨h0, _, _, hw, hr⟩ := h
    refine ⟨h0, by simp, by decide, ?_, ih hr⟩
    rcases hw with hw | hw
    · exact .inl hw
    · exact .inr (by simp [hw])

/-- **C35** Normalisation is idempotent. -/
theorem C35_idempotent (text : List Char) : normalizeSpace (normalizeSpace text) = normalizeSpace text := by
  obtain ⟨w0, rest, hok, rfl⟩ := weave_exists text
  rw [C35_words w0 rest hok, C35_words _ _ (wordsOk_single hok)]
  simp [Function.comp_def]

/-- **C35** The normalised text has no two adjacent white space characters, and no other white space than spaces. -/
theorem C35_no_adjacent (text : List Char) :
    (∀ pre a b post, normalizeSpace text = pre ++ a :: b :: post → ¬ (isSpace a = true ∧ isSpace b = true)) ∧
    ∀ c ∈ normalizeSpace text, isSpace c = true → c = ' ' := by
  have key : ∀ (text : List Char) (b : Bool),
      (∀ c ∈ normalizeFrom b text, isSpace c = true → c = ' ') ∧
      (b = true → ∀ c, (normalizeFrom b text).head? = some c → isSpace c = false) ∧
      ∀ pre x y post, normalizeFrom b text = pre ++ x :: y :: post → ¬ (isSpace x = true ∧ isSpace y = true) := by
    intro text
    induction text with
    | nil => intro b; simp [normalizeFrom]
    | cons c text ih =>
      intro b
      by_cases hc : isSpace c = true
      · cases b with
        | true => simpa [normalizeFrom, hc] using ih true
        | false =>
          simp only [normalizeFrom, hc, if_true, Bool.false_eq_true, if_false]
          obtain ⟨h1, h2, h3⟩ := ih true
          refine ⟨?_, by simp, ?_⟩
          · intro x hx hs
            rcases List.mem_cons.1 hx with rfl | hx
            · rfl
            · exact h1 x hx hs
          · intro pre x y post he
            cases pre with
            | nil =>
              simp only [List.nil_append, List.cons.injEq] at he
              rintro ⟨_, hy⟩
              have := h2 rfl y (by simp [he.2])
              rw [hy] at this; simp at this
            | cons p pre =>
              simp only [List.cons_append, List.cons.injEq] at he
              exact h3 pre x y post he.2
      · have hc : isSpace c = false := by simpa using hc
        simp only [normalizeFrom, hc, Bool.false_eq_true, if_false]
        obtain ⟨h1, _, h3⟩ := ih false
        refine ⟨?_, ?_, ?_⟩
        · intro x hx hs
          rcases List.mem_cons.1 hx with rfl | hx
          · rw [hc] at hs; simp at hs
          · exact h1 x hx hs
        · intro _ x hx
          simp only [List.head?_cons, Option.some.injEq] at hx
          subst hx; simpa using hc
        · intro pre x y post he
          cases pre with
          | nil =>
            simp only [List.nil_append, List.cons.injEq] at he
            rintro ⟨hx, _⟩
            rw [← he.1, hc] at hx; simp at hx
          | cons p pre =>
            simp only [List.cons_append, List.cons.injEq] at he
            exact h3 pre x y post he.2
  exact ⟨(key text false).2.2, (key text false).1⟩

example : WordsOk ['a'] [([' ', '\t'], ['b']), (['\n'], [])] := by
  refine ⟨by decide, by simp, by decide, by simp, by decide, by simp, by decide, by simp, by simp [WordsOk]⟩

example : normalizeSpace ['a', ' ', '\t', 'b', '\n'] = ['a', ' ', 'b', ' '] := by decide

end Verif
