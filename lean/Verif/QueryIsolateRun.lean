import Verif.QueryIsolate
import Verif.QuerySortRun
import Verif.Props.FrontResolve

/-!
# The optimiser on queries with negation, quantifiers, numbers and alternatives
-/

namespace Verif

theorem varsOf_simple {v : Value} (h : Simple v) : varsOf v = argVars [v] := by
  cases v <;> first | exact h.elim | rfl

theorem varsOfList_simple {args : List Value} (h : ∀ v ∈ args, Simple v) : varsOfList args = argVars args := by
  induction args with
  | nil => rfl
  | cons v vs ih =>
    rw [varsOfList, varsOf_simple (h v (by simp)), ih fun v hv => h v (by simp [hv]), ← argVars_append, List.singleton_append]

mutual
theorem varsOf_form : ∀ f : Form, f.Simple → varsOf f.toValue = f.vars
  | .atom p args, h => by rw [Form.Simple] at h; simp [Form.toValue, Form.vars, varsOf, varsOfList, varsOfList_simple h.2]
  | .neg q, h => by rw [Form.Simple] at h; simp [Form.toValue, Form.vars, varsOf, varsOfList, varsOf_forms q h]
  | .thereIsNo q, h => by rw [Form.Simple] at h; simp [Form.toValue, Form.vars, varsOf, varsOfList, varsOf_forms q h]
  | .thereIs q, h => by rw [Form.Simple] at h; simp [Form.toValue, Form.vars, varsOf, varsOfList, varsOf_forms q h]
  | .exactly q n, h => by
    rw [Form.Simple] at h
    simp [Form.toValue, Form.vars, varsOf, varsOfList, varsOf_forms q h.1, varsOf_simple h.2]
  | .moreThan q n, h => by
    rw [Form.Simple] at h
    simp [Form.toValue, Form.vars, varsOf, varsOfList, varsOf_forms q h.1, varsOf_simple h.2]
  | .fewerThan q n, h => by
    rw [Form.Simple] at h
    simp [Form.toValue, Form.vars, varsOf, varsOfList, varsOf_forms q h.1, varsOf_simple h.2]
  | .all x r q, h => by
    rw [Form.Simple] at h
    simp [Form.toValue, Form.vars, varsOf, varsOfList, varsOf_forms q h.2, varsOf_forms r h.1]
  | .count x q, h => by rw [Form.Simple] at h; simp [Form.toValue, Form.vars, varsOf, varsOfList, varsOf_forms q h]
  | .either qs, h => by rw [Form.Simple] at h; simp [Form.toValue, Form.vars, varsOf, varsOfList, varsOf_alts qs h]
  | .equals a c, h => by
    rw [Form.Simple] at h
    have := varsOfList_simple (args := [a, c]) (by simp [h.1, h.2])
    simp only [varsOfList] at this
    simp [Form.toValue, Form.vars, varsOf, varsOfList, ← this]
  | .greater a c, h => by
    rw [Form.Simple] at h
    have := varsOfList_simple (args := [a, c]) (by simp [h.1, h.2])
    simp only [varsOfList] at this
    simp [Form.toValue, Form.vars, varsOf, varsOfList, ← this]
  | .less a c, h => by
    rw [Form.Simple] at h
    have := varsOfList_simple (args := [a, c]) (by simp [h.1, h.2])
    simp only [varsOfList] at this
    simp [Form.toValue, Form.vars, varsOf, varsOfList, ← this]
  | .assign x v, h => by
    rw [Form.Simple] at h
    simp [Form.toValue, Form.vars, varsOf, varsOfList, varsOf_simple h]
  | .times a c x, h => by
    rw [Form.Simple] at h
    have := varsOfList_simple (args := [a, c]) (by simp [h.1, h.2])
    simp only [varsOfList] at this
    simp [Form.toValue, Form.vars, varsOf, varsOfList, ← this]
theorem varsOf_forms : ∀ q : List Form, FormsSimple q → varsOfList (formValues q) = formVars q
  | [], _ => rfl
  | f :: fs, h => by rw [FormsSimple] at h; rw [formValues, varsOfList, formVars, varsOf_form f h.1, varsOf_forms fs h.2]
theorem varsOf_alts : ∀ qs : List (List Form), AltsSimple qs → varsOfList (altValues qs) = altVars qs
  | [], _ => rfl
  | q :: qs, h => by rw [AltsSimple] at h; rw [altValues, varsOfList, altVars, varsOf, varsOf_forms q h.1, varsOf_alts qs h.2]
end

theorem formValues_length (q : List Form) : (formValues q).length = q.length := by rw [formValues_eq, List.length_map]

theorem formValues_app (q q' : List Form) : formValues (q ++ q') = formValues q ++ formValues q' := by
  simp [formValues_eq]

theorem formValues_filter (k : Value → Bool) (q : List Form) : (formValues q).filter k = formValues (q.filter fun f => k f.toValue) := by
  rw [formValues_eq, formValues_eq, List.filter_map]
  rfl

theorem formsSimple_filter {q : List Form} (h : FormsSimple q) (k : Form → Bool) : FormsSimple (q.filter k) :=
  formsSimple_iff.2 fun f hf => formsSimple_iff.1 h f (List.mem_filter.1 hf).1

theorem collectBatches_filter {atoms : List Value} {excluded : List String} {b : AtomBatch} (hb : b ∈ collectBatches atoms excluded) :
    b.atoms = atoms.filter fun a => decide (a ∈ b.atoms) := by
  obtain ⟨c, _, rfl⟩ := List.mem_map.1 hb
  show atoms.filter _ = _
  apply List.filter_congr
  intro a ha
  simp [restoreOrder, ha]

/-- The parts of the query that a batch stands for. -/
def batchForms (rest : List Form) (b : AtomBatch) : List Form := rest.filter fun f => decide (f.toValue ∈ b.atoms)

theorem batchForms_values {rest : List Form} {excluded : List String} {b : AtomBatch} (hb : b ∈ collectBatches (formValues rest) excluded) :
    b.atoms = formValues (batchForms rest b) := by
  rw [batchForms, ← formValues_filter fun a => decide (a ∈ b.atoms)]
  exact collectBatches_filter hb

theorem batchForms_vars {h : Form} {rest : List Form} (hh : h.Simple) (hr : FormsSimple rest) {b : AtomBatch}
    (hb : b ∈ collectBatches (formValues rest) (varsOf h.toValue)) (x : String) :
    x ∈ b.vars ↔ x ∈ formVars (batchForms rest b) ∧ x ∉ h.vars := by
  rw [((collectBatches_spec _ _).1.2 b hb x), batchForms_values hb, formValues_eq, ← varsOf_form h hh]
  constructor
  · rintro ⟨a, ha, hx, hxh⟩
    obtain ⟨f, hf, rfl⟩ := List.mem_map.1 ha
    rw [varsOf_form f (formsSimple_iff.1 (formsSimple_filter hr _) f hf)] at hx
    exact ⟨mem_formVars.2 ⟨f, hf, hx⟩, hxh⟩
  · rintro ⟨hx, hxh⟩
    obtain ⟨f, hf, hx⟩ := mem_formVars.1 hx
    refine ⟨f.toValue, List.mem_map.2 ⟨f, hf, rfl⟩, ?_, hxh⟩
    rw [varsOf_form f (formsSimple_iff.1 (formsSimple_filter hr _) f hf)]
    exact hx

theorem divides_batches {h : Form} {rest : List Form} (hh : h.Simple) (hr : FormsSimple rest) :
    Divides h rest ((collectBatches (formValues rest) (varsOf h.toValue)).map (batchForms rest)) := by
  obtain ⟨h1, h2, _⟩ := collectBatches_spec (formValues rest) (varsOf h.toValue)
  refine ⟨?_, ?_, ?_⟩
  · intro p hp
    obtain ⟨b, _, rfl⟩ := List.mem_map.1 hp
    exact ⟨_, rfl⟩
  · intro f hf
    obtain ⟨b, hb, hfb⟩ := (h1.1 f.toValue).1 (by rw [formValues_eq]; exact List.mem_map.2 ⟨f, hf, rfl⟩)
    exact ⟨_, List.mem_map.2 ⟨b, hb, rfl⟩, List.mem_filter.2 ⟨hf, by simpa using hfb⟩⟩
  · rw [List.pairwise_map]
    refine h2.imp_of_mem fun {b c} hb hc hbc x hx hx' => ?_
    apply Classical.byContradiction
    intro hxh
    exact hbc x ((batchForms_vars hh hr hc x).2 ⟨hx', hxh⟩) ((batchForms_vars hh hr hb x).2 ⟨hx, hxh⟩)

theorem placeBatches_forms {h : Form} {rest : List Form} (hh : h.Simple) (hr : FormsSimple rest) {roots : List String}
    {rec : List Value → List Value} {bs : List AtomBatch} (hbs : ∀ b ∈ bs, b ∈ collectBatches (formValues rest) (varsOf h.toValue))
    (hrec : ∀ b ∈ bs, ∃ p', rec b.atoms = formValues p' ∧ Iso [] (batchForms rest b) p') :
    ∃ out, placeBatches roots rec bs = formValues out ∧ Placed h roots (bs.map (batchForms rest)) out := by
  induction bs with
  | nil => exact ⟨[], rfl, .nil⟩
  | cons b bs ih =>
    obtain ⟨out, e, hout⟩ := ih (fun b hb => hbs b (by simp [hb])) (fun b hb => hrec b (by simp [hb]))
    rw [placeBatches, e]
    cases hs : shares b.vars roots with
    | true => exact ⟨batchForms rest b ++ out, by rw [formValues_app, ← batchForms_values (hbs b (by simp))]; rfl, .keep hout⟩
    | false =>
      obtain ⟨p', e', hp'⟩ := hrec b (by simp)
      refine ⟨.thereIs p' :: out, by simp [e', formValues, Form.toValue], .scope ?_ hp' hout⟩
      intro x hx hxh
      exact shares_false_iff.1 hs x ((batchForms_vars hh hr (hbs b (by simp)) x).2 ⟨hx, hxh⟩)

theorem isolateN_forms (n : Nat) : ∀ (q : List Form) (roots : List String), q.length ≤ n → FormsSimple q →
    ∃ q', isolateN n (formValues q) roots = formValues q' ∧ Iso roots q q' := by
  induction n with
  | zero =>
    intro q roots hn hq
    have : q = [] := List.eq_nil_of_length_eq_zero (by omega)
    subst this
    exact ⟨[], by simp [isolateN, formValues], .nil⟩
  | succ n ih =>
    intro q roots hn hq
    cases q with
    | nil => exact ⟨[], by simp [isolateN, formValues], .nil⟩
    | cons h rest =>
      rw [FormsSimple] at hq
      rw [formValues, isolateN]
      obtain ⟨out, e, hout⟩ := placeBatches_forms hq.1 hq.2 (roots := roots) (rec := fun atoms => isolateN n atoms [])
        (fun b hb => hb) (fun b hb => by
          have hlen := (collectBatches_spec _ _).2.2 b hb
          rw [batchForms_values hb] at hlen ⊢
          rw [formValues_length, formValues_length] at hlen
          simp only [List.length_cons] at hn
          exact ih _ [] (by omega) (formsSimple_filter hq.2 _))
      exact ⟨h :: out, by rw [e, formValues], .cons (divides_batches hq.1 hq.2) hout⟩

/-! ## Nothing to move to the front -/

theorem Simple.not_list {v : Value} (h : Simple v) : ∀ xs, v ≠ .list xs := by
  intro xs e; subst e; exact h

theorem extractTerms_simple {ts : List Value} (h : ∀ v ∈ ts, Simple v) : extractTerms ts = .ok ([], ts) := by
  induction ts with
  | nil => simp [extractTerms]
  | cons t ts ih =>
    have ht := h t (by simp)
    cases t <;> first | exact ht.elim | simp [extractTerms, ih fun v hv => h v (by simp [hv])]

mutual
theorem extractOne_form : ∀ f : Form, f.Simple → extractOne f.toValue = .ok ([], [f.toValue])
  | .atom p args, h => by
    rw [Form.Simple] at h
    simp [Form.toValue, extractOne, h.1, extractTerms, extractTerms_simple h.2]
  | .neg q, h => by rw [Form.Simple] at h; simp [Form.toValue, extractOne, extractTerms, extractList_forms q h]
  | .thereIsNo q, h => by rw [Form.Simple] at h; simp [Form.toValue, extractOne, extractTerms, extractList_forms q h]
  | .thereIs q, h => by rw [Form.Simple] at h; simp [Form.toValue, extractOne, extractTerms, extractList_forms q h]
  | .exactly q n, h => by
    rw [Form.Simple] at h
    have := extractTerms_simple (ts := [n]) (by simp [h.2])
    simp [Form.toValue, extractOne, extractTerms, extractList_forms q h.1, this]
  | .moreThan q n, h => by
    rw [Form.Simple] at h
    have := extractTerms_simple (ts := [n]) (by simp [h.2])
    simp [Form.toValue, extractOne, extractTerms, extractList_forms q h.1, this]
  | .fewerThan q n, h => by
    rw [Form.Simple] at h
    have := extractTerms_simple (ts := [n]) (by simp [h.2])
    simp [Form.toValue, extractOne, extractTerms, extractList_forms q h.1, this]
  | .all x r q, h => by
    rw [Form.Simple] at h
    simp [Form.toValue, extractOne, extractTerms, extractList_forms q h.2, extractList_forms r h.1]
  | .count x q, h => by rw [Form.Simple] at h; simp [Form.toValue, extractOne, extractTerms, extractList_forms q h]
  | .either qs, h => by rw [Form.Simple] at h; simp [Form.toValue, extractOne, extractTerms, extractList_alts qs h]
  | .equals a c, h => by
    rw [Form.Simple] at h
    simp [Form.toValue, extractOne, extractTerms, extractTerms_simple (ts := [a, c]) (by simp [h.1, h.2])]
  | .greater a c, h => by
    rw [Form.Simple] at h
    simp [Form.toValue, extractOne, extractTerms, extractTerms_simple (ts := [a, c]) (by simp [h.1, h.2])]
  | .less a c, h => by
    rw [Form.Simple] at h
    simp [Form.toValue, extractOne, extractTerms, extractTerms_simple (ts := [a, c]) (by simp [h.1, h.2])]
  | .assign x v, h => by
    rw [Form.Simple] at h
    simp [Form.toValue, extractOne, extractTerms, extractTerms_simple (ts := [v]) (by simp [h])]
  | .times a c x, h => by
    rw [Form.Simple] at h
    simp [Form.toValue, extractOne, extractTerms, extractTerms_simple (ts := [a, c, .var x]) (by rintro v hv; simp only [List.mem_cons, List.not_mem_nil, or_false] at hv; rcases hv with rfl | rfl | rfl <;> first | exact h.1 | exact h.2 | exact trivial)]
theorem extractList_forms : ∀ q : List Form, FormsSimple q → extractList (formValues q) = .ok ([], formValues q)
  | [], _ => by simp [extractList, formValues]
  | f :: fs, h => by rw [FormsSimple] at h; simp [formValues, extractList, extractOne_form f h.1, extractList_forms fs h.2]
theorem extractList_alts : ∀ qs : List (List Form), AltsSimple qs → extractList (altValues qs) = .ok ([], altValues qs)
  | [], _ => by simp [extractList, altValues]
  | q :: qs, h => by rw [AltsSimple] at h; simp [altValues, extractList, extractOne, extractList_forms q h.1, extractList_alts qs h.2]
end

theorem frontSort_forms {q : List Form} (h : FormsSimple q) : frontSort (formValues q) = .ok (formValues q) := by
  simp [frontSort, extractList_forms q h]

/-! ## Sorting keeps simple queries simple -/

mutual
theorem Adv.simple {early : Form → Bool} {q q' : List Form} : Adv early q q' → FormsSimple q → FormsSimple q'
  | .mk he hl ha e, h => by
    have hs := formsSimple_iff.1 (ha.simple (formsSimple_iff.2 fun f hf => by
      rw [hl] at hf
      exact formsSimple_iff.1 h f (List.mem_filter.1 hf).1))
    rw [formsSimple_iff] at h ⊢
    intro f hf
    rw [e] at hf
    rcases List.mem_append.1 hf with hf | hf
    · exact h f (List.mem_filter.1 (he.mem_iff.1 hf)).1
    · exact hs f hf
theorem AdvAll.simple {early : Form → Bool} {q q' : List Form} : AdvAll early q q' → FormsSimple q → FormsSimple q'
  | .nil, _ => trivial
  | .cons h1 h2, h => by rw [FormsSimple] at h ⊢; exact ⟨h1.simple h.1, h2.simple h.2⟩
theorem AdvForm.simple {early : Form → Bool} {f f' : Form} : AdvForm early f f' → f.Simple → f'.Simple
  | .same _, h => h
  | .neg h1, h => by rw [Form.Simple] at h ⊢; exact h1.simple h
  | .thereIsNo h1, h => by rw [Form.Simple] at h ⊢; exact h1.simple h
  | .thereIs h1, h => by rw [Form.Simple] at h ⊢; exact h1.simple h
  | .exactly h1, h => by rw [Form.Simple] at h ⊢; exact ⟨h1.simple h.1, h.2⟩
  | .moreThan h1, h => by rw [Form.Simple] at h ⊢; exact ⟨h1.simple h.1, h.2⟩
  | .fewerThan h1, h => by rw [Form.Simple] at h ⊢; exact ⟨h1.simple h.1, h.2⟩
  | .all h1 h2, h => by rw [Form.Simple] at h ⊢; exact ⟨h1.simple h.1, h2.simple h.2⟩
  | .count h1, h => by rw [Form.Simple] at h ⊢; exact h1.simple h
end

end Verif
