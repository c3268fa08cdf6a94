import Verif.Optimizer

/-!
# The batches of `IsolateIndependentParts`
-/

namespace Verif

/-- The batches together have the given atoms; the variables of a batch are those of its atoms that are not excluded. -/
def BatchesOf (atoms : List Value) (excluded : List String) (bs : List AtomBatch) : Prop :=
  (∀ a, a ∈ atoms ↔ ∃ b ∈ bs, a ∈ b.atoms) ∧ ∀ b ∈ bs, ∀ x, x ∈ b.vars ↔ ∃ a ∈ b.atoms, x ∈ varsOf a ∧ x ∉ excluded

/-- No variable is in both. -/
def Apart (xs ys : List String) : Prop := ∀ x ∈ xs, x ∉ ys

theorem shares_iff {xs ys : List String} : shares xs ys = true ↔ ∃ x ∈ xs, x ∈ ys := by
  simp [shares, List.any_eq_true]

theorem shares_false_iff {xs ys : List String} : shares xs ys = false ↔ Apart xs ys := by
  rw [← Bool.not_eq_true, shares_iff]
  simp [Apart]

theorem addBatch_mem (b : AtomBatch) (ns : List AtomBatch) :
    (∀ a, (∃ c ∈ addBatch b ns, a ∈ c.atoms) ↔ a ∈ b.atoms ∨ ∃ c ∈ ns, a ∈ c.atoms) ∧
      ∀ {P : List Value → List String → Prop}, (∀ a1 v1 a2 v2, P a1 v1 → P a2 v2 → P (a1 ++ a2) (v1 ++ v2)) → P b.atoms b.vars →
        (∀ c ∈ ns, P c.atoms c.vars) → ∀ c ∈ addBatch b ns, P c.atoms c.vars := by
  induction ns with
  | nil => simp [addBatch]
  | cons n ns ih =>
    rw [addBatch]
    split
    · refine ⟨?_, ?_⟩
      · intro a
        simp only [List.mem_cons, exists_eq_or_imp, List.mem_append]
        rw [or_comm (a := a ∈ n.atoms), or_assoc]
      · intro P hP hb hns c hc
        rcases List.mem_cons.1 hc with rfl | hc
        · exact hP _ _ _ _ (hns n (by simp)) hb
        · exact hns c (by simp [hc])
    · refine ⟨?_, ?_⟩
      · intro a
        simp only [List.mem_cons, exists_eq_or_imp]
        rw [ih.1 a, ← or_assoc, or_comm (a := a ∈ n.atoms), or_assoc]
      · intro P hP hb hns c hc
        rcases List.mem_cons.1 hc with rfl | hc
        · exact hns _ (by simp)
        · exact ih.2 hP hb (fun c hc => hns c (by simp [hc])) c hc

theorem mergePass_mem (acc bs : List AtomBatch) :
    (∀ a, (∃ c ∈ mergePass acc bs, a ∈ c.atoms) ↔ (∃ c ∈ acc, a ∈ c.atoms) ∨ ∃ c ∈ bs, a ∈ c.atoms) ∧
      ∀ {P : List Value → List String → Prop}, (∀ a1 v1 a2 v2, P a1 v1 → P a2 v2 → P (a1 ++ a2) (v1 ++ v2)) →
        (∀ c ∈ acc, P c.atoms c.vars) → (∀ c ∈ bs, P c.atoms c.vars) → ∀ c ∈ mergePass acc bs, P c.atoms c.vars := by
  induction bs generalizing acc with
  | nil => simp [mergePass]
  | cons b bs ih =>
    rw [mergePass]
    have hb := addBatch_mem b acc
    refine ⟨?_, ?_⟩
    · intro a
      rw [(ih _).1, hb.1]
      simp only [List.mem_cons, exists_eq_or_imp]
      rw [or_comm (a := a ∈ b.atoms), or_assoc]
    · intro P hP hacc hbs
      exact (ih _).2 hP (hb.2 hP (hbs b (by simp)) hacc) (fun c hc => hbs c (by simp [hc]))

theorem addBatch_length (b : AtomBatch) (ns : List AtomBatch) :
    (addBatch b ns).length = ns.length ∨ addBatch b ns = ns ++ [b] ∧ ∀ n ∈ ns, Apart b.vars n.vars := by
  induction ns with
  | nil => right; simp [addBatch]
  | cons n ns ih =>
    rw [addBatch]
    split
    · left; simp
    · rename_i hsh
      rcases ih with h | ⟨h, h'⟩
      · left; simp [h]
      · right
        refine ⟨by simp [h], ?_⟩
        intro c hc
        rcases List.mem_cons.1 hc with rfl | hc
        · exact shares_false_iff.1 (by simpa using hsh)
        · exact h' c hc

theorem mergePass_length_le (acc bs : List AtomBatch) : (mergePass acc bs).length ≤ acc.length + bs.length := by
  induction bs generalizing acc with
  | nil => simp [mergePass]
  | cons b bs ih =>
    rw [mergePass]
    have := ih (addBatch b acc)
    rcases addBatch_length b acc with h | ⟨h, _⟩
    · simp only [List.length_cons]; omega
    · rw [h] at this ⊢; simp only [List.length_append, List.length_cons, List.length_nil] at this ⊢; omega

/-- A round that joins nothing leaves the batches, which are then apart. -/
theorem mergePass_stable {acc bs : List AtomBatch} (h : (mergePass acc bs).length = acc.length + bs.length) :
    mergePass acc bs = acc ++ bs ∧ bs.Pairwise (fun b c => Apart c.vars b.vars) ∧ ∀ b ∈ bs, ∀ n ∈ acc, Apart b.vars n.vars := by
  induction bs generalizing acc with
  | nil => simp [mergePass]
  | cons b bs ih =>
    rw [mergePass] at h ⊢
    have hle := mergePass_length_le (addBatch b acc) bs
    rcases addBatch_length b acc with h1 | ⟨h1, h2⟩
    · simp only [List.length_cons] at h; omega
    · rw [h1] at h ⊢
      obtain ⟨h3, h4, h5⟩ := ih (by rw [h]; simp; omega)
      refine ⟨by rw [h3]; simp, List.pairwise_cons.2 ⟨fun c hc => h5 c hc b (by simp), h4⟩, ?_⟩
      intro c hc
      rcases List.mem_cons.1 hc with rfl | hc
      · exact h2
      · exact fun n hn => h5 c hc n (by simp [hn])

theorem mergePass_sub {atoms : List Value} {excluded : List String} {bs : List AtomBatch} (h : BatchesOf atoms excluded bs) :
    BatchesOf atoms excluded (mergePass [] bs) := by
  have hm := mergePass_mem [] bs
  refine ⟨?_, ?_⟩
  · intro a; rw [hm.1, h.1]; simp
  · have := hm.2 (P := fun as vs => ∀ x, x ∈ vs ↔ ∃ a ∈ as, x ∈ varsOf a ∧ x ∉ excluded) ?_ (by simp) h.2
    · exact this
    · intro a1 v1 a2 v2 h1 h2 x
      rw [List.mem_append, h1, h2]
      simp only [List.mem_append, or_and_right, exists_or]

theorem mergeLoop_spec {atoms : List Value} {excluded : List String} (n : Nat) {bs : List AtomBatch} (hn : bs.length ≤ n)
    (h : BatchesOf atoms excluded bs) :
    BatchesOf atoms excluded (mergeLoop n bs) ∧ (mergeLoop n bs).Pairwise fun b c => Apart c.vars b.vars := by
  induction n generalizing bs with
  | zero =>
    have : bs = [] := List.eq_nil_of_length_eq_zero (by omega)
    subst this
    exact ⟨h, by simp [mergeLoop]⟩
  | succ n ih =>
    rw [mergeLoop]
    split
    · rename_i he
      exact ⟨h, (mergePass_stable (acc := []) (by simpa using he)).2.1⟩
    · rename_i he
      have := mergePass_length_le [] bs
      exact ih (by simp at this; omega) (mergePass_sub h)

/-- More rounds than there are batches change nothing: the loop has stopped. -/
theorem mergeLoop_more (n m : Nat) {bs : List AtomBatch} (hn : bs.length ≤ n) (hm : bs.length ≤ m) : mergeLoop n bs = mergeLoop m bs := by
  induction n generalizing m bs with
  | zero =>
    have : bs = [] := List.eq_nil_of_length_eq_zero (by omega)
    subst this
    cases m <;> simp [mergeLoop, mergePass]
  | succ n ih =>
    cases m with
    | zero =>
      have : bs = [] := List.eq_nil_of_length_eq_zero (by omega)
      subst this
      simp [mergeLoop, mergePass]
    | succ m =>
      rw [mergeLoop, mergeLoop]
      split
      · rfl
      · rename_i he
        have := mergePass_length_le [] bs
        simp at this
        exact ih m (by omega) (by omega)

theorem batchesOf_single (atoms : List Value) (excluded : List String) :
    BatchesOf atoms excluded (atoms.map fun a => ⟨[a], (varsOf a).filter fun x => !excluded.contains x⟩) := by
  refine ⟨?_, ?_⟩
  · intro a
    constructor
    · exact fun h => ⟨_, List.mem_map.2 ⟨a, h, rfl⟩, by simp⟩
    · rintro ⟨b, hb, h⟩
      obtain ⟨c, hc, rfl⟩ := List.mem_map.1 hb
      simp only [List.mem_singleton] at h
      exact h ▸ hc
  · intro b hb x
    obtain ⟨a, _, rfl⟩ := List.mem_map.1 hb
    simp

theorem collectBatches_spec (atoms : List Value) (excluded : List String) :
    BatchesOf atoms excluded (collectBatches atoms excluded) ∧
      (collectBatches atoms excluded).Pairwise (fun b c => Apart c.vars b.vars) ∧
      ∀ b ∈ collectBatches atoms excluded, b.atoms.length ≤ atoms.length := by
  obtain ⟨⟨h1, h2⟩, h3⟩ := mergeLoop_spec atoms.length (by simp) (batchesOf_single atoms excluded)
  have hmem : ∀ b ∈ mergeLoop atoms.length (atoms.map fun a => (⟨[a], (varsOf a).filter fun x => !excluded.contains x⟩ : AtomBatch)), ∀ a,
      a ∈ (restoreOrder atoms b).atoms ↔ a ∈ b.atoms := by
    intro b hb a
    simp only [restoreOrder, List.mem_filter, decide_eq_true_eq]
    exact ⟨fun h => h.2, fun h => ⟨(h1 a).2 ⟨b, hb, h⟩, h⟩⟩
  refine ⟨⟨?_, ?_⟩, ?_, ?_⟩
  · intro a
    rw [h1]
    constructor
    · rintro ⟨b, hb, ha⟩
      exact ⟨_, List.mem_map.2 ⟨b, hb, rfl⟩, (hmem b hb a).2 ha⟩
    · rintro ⟨c, hc, ha⟩
      obtain ⟨b, hb, rfl⟩ := List.mem_map.1 hc
      exact ⟨b, hb, (hmem b hb a).1 ha⟩
  · intro c hc x
    obtain ⟨b, hb, rfl⟩ := List.mem_map.1 hc
    simp only [hmem b hb]
    exact h2 b hb x
  · rw [collectBatches, List.pairwise_map]
    exact h3
  · intro c hc
    obtain ⟨b, _, rfl⟩ := List.mem_map.1 hc
    exact List.length_filter_le _ _

theorem placeBatches_congr {roots : List String} {f g : List Value → List Value} {bs : List AtomBatch} (h : ∀ b ∈ bs, f b.atoms = g b.atoms) :
    placeBatches roots f bs = placeBatches roots g bs := by
  induction bs with
  | nil => rfl
  | cons b bs ih =>
    rw [placeBatches, placeBatches, ih fun c hc => h c (by simp [hc]), h b (by simp)]

/-- The bound on the depth of the recursion does not matter once it is the number of atoms. -/
theorem isolateN_more (n m : Nat) (atoms : List Value) (roots : List String) (hn : atoms.length ≤ n) (hm : atoms.length ≤ m) :
    isolateN n atoms roots = isolateN m atoms roots := by
  induction n generalizing m atoms roots with
  | zero =>
    have : atoms = [] := List.eq_nil_of_length_eq_zero (by omega)
    subst this
    cases m <;> simp [isolateN]
  | succ n ih =>
    cases atoms with
    | nil => cases m <;> simp [isolateN]
    | cons head rest =>
      cases m with
      | zero => simp at hm
      | succ m =>
        rw [isolateN, isolateN]
        congr 1
        refine placeBatches_congr fun b hb => ?_
        have := (collectBatches_spec rest (varsOf head)).2.2 b hb
        simp at hn hm
        exact ih m _ _ (by omega) (by omega)

end Verif
