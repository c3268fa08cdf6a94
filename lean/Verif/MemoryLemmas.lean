import Verif.RuleBase
import Verif.Props.DataSource

/-!
# Memory modules answer queries from what was stored
-/

namespace Verif

variable {W : Type}

/-- The record was written by a relation of the module, with all values given. -/
structure RecordOk (rels : Dict (List String)) (r : LogRecord) : Prop where
  columns : rels.get r.table = some r.columns
  nodup : r.columns.Nodup
  length : r.values.length = r.columns.length
  values : ∀ v ∈ r.values, v ≠ .none

/-- The rows stored for a predicate, in order (specification). -/
def rowsOf (log : List LogRecord) (p : String) : List (List Value) :=
  (log.filter fun r => decide (r.table = p)).map LogRecord.values

theorem cellOf_cons (c : String) (cs : List String) (v : Value) (vs : List Value) (x : String) :
    cellOf (c :: cs) (v :: vs) x = match cellOf cs vs x with
      | some u => some u
      | none => if c = x ∧ v ≠ .none then some v else none := by
  simp only [cellOf, List.zip_cons_cons, List.reverse_cons, List.find?_append, List.find?_singleton]
  cases h : List.find? (fun kv => decide (kv.1 = x ∧ kv.2 ≠ .none)) (cs.zip vs).reverse with
  | some y => simp
  | none =>
    by_cases hh : c = x ∧ v ≠ .none
    · simp [hh]
    · simp only [hh, decide_false, Option.none_or, Option.map_none, if_false, Bool.false_eq_true]

theorem cellOf_not_mem {cs : List String} {vs : List Value} {x : String} (h : x ∉ cs) : cellOf cs vs x = none := by
  induction cs generalizing vs with
  | nil => rfl
  | cons c cs ih =>
    cases vs with
    | nil => rfl
    | cons v vs =>
      simp only [List.mem_cons, not_or] at h
      rw [cellOf_cons, ih h.2]
      simp [Ne.symm h.1]

theorem rowOf_self {t : String} {cs : List String} {vs : List Value} (hn : cs.Nodup) (hl : vs.length = cs.length)
    (hv : ∀ v ∈ vs, v ≠ .none) : rowOf cs ⟨t, cs, vs⟩ = some vs := by
  have key : ∀ (cs : List String) (vs : List Value), cs.Nodup → vs.length = cs.length → (∀ v ∈ vs, v ≠ .none) →
      ∀ f : String → Option Value, (∀ c ∈ cs, f c = cellOf cs vs c) → cs.mapM f = some vs := by
    intro cs
    induction cs with
    | nil => intro vs _ hl _ f _; cases vs <;> simp_all
    | cons c cs ih =>
      intro vs hn hl hv f hf
      cases vs with
      | nil => simp at hl
      | cons v vs =>
        simp only [List.nodup_cons] at hn
        have h1 : f c = some v := by
          rw [hf c (by simp), cellOf_cons, cellOf_not_mem hn.1]
          simp [hv v (by simp)]
        have h2 := ih vs hn.2 (by simpa using hl) (fun u hu => hv u (List.mem_cons_of_mem _ hu)) f (fun x hx => by
          rw [hf x (List.mem_cons_of_mem _ hx), cellOf_cons]
          have : c ≠ x := fun e => hn.1 (e ▸ hx)
          cases cellOf cs vs x <;> simp [this])
        rw [List.mapM_cons, h1, h2]; rfl
  exact key cs vs hn hl hv _ fun c _ => rfl

theorem agrees_iff_matches {t : String} {cs : List String} {vs us : List Value} (hn : cs.Nodup) (hl : vs.length = cs.length)
    (hv : ∀ v ∈ vs, v ≠ .none) : agreesWith cs us ⟨t, cs, vs⟩ ↔ rowMatches us vs = true := by
  simp only [agreesWith]
  induction cs generalizing vs us with
  | nil =>
    cases vs with
    | nil => cases us <;> simp [cellOf, rowMatches]
    | cons => simp at hl
  | cons c cs ih =>
    cases vs with
    | nil => simp at hl
    | cons v vs =>
      cases us with
      | nil => simp [cellOf, rowMatches]
      | cons u us =>
        simp only [List.nodup_cons] at hn
        have ih := ih (us := us) hn.2 (by simpa using hl) (fun u hu => hv u (List.mem_cons_of_mem _ hu))
        simp only [rowMatches, Bool.and_eq_true, Bool.or_eq_true, decide_eq_true_eq, ← ih]
        constructor
        · intro h
          refine ⟨?_, ?_⟩
          · by_cases hu : u = .none
            · exact .inl hu
            · right
              have := h c u v (by rw [cellOf_cons, cellOf_not_mem hn.1]; simp [hu])
                (by rw [cellOf_cons, cellOf_not_mem hn.1]; simp [hv v (by simp)])
              exact this.symm
          · intro x a b ha hb
            exact h x a b (by rw [cellOf_cons, ha]) (by rw [cellOf_cons, hb])
        · rintro ⟨h1, h2⟩ x a b ha hb
          rw [cellOf_cons] at ha hb
          by_cases hx : c = x
          · subst hx
            rw [cellOf_not_mem hn.1] at ha hb
            simp only [true_and] at ha hb
            split at ha
            · split at hb
              · rename_i hu _
                simp only [Option.some.injEq] at ha hb
                subst ha; subst hb
                exact (h1.resolve_left hu).symm
              · simp at hb
            · simp at ha
          · simp only [hx, false_and, if_false] at ha hb
            cases ha' : cellOf cs us x with
            | none => rw [ha'] at ha; simp at ha
            | some a' =>
              cases hb' : cellOf cs vs x with
              | none => rw [hb'] at hb; simp at hb
              | some b' =>
                rw [ha'] at ha; rw [hb'] at hb
                simp only [Option.some.injEq] at ha hb
                subst ha; subst hb
                exact h2 x a' b' ha' hb'

/-- A select on a table all of whose records are complete. -/
theorem select_complete {s : SimpleStore} {log : List LogRecord} (h : Represents s log) {p : String} {cs : List String}
    (hlog : ∀ r ∈ log, r.table = p → r.columns = cs ∧ cs.Nodup ∧ r.values.length = cs.length ∧ ∀ v ∈ r.values, v ≠ .none)
    (us : List Value) : s.select p cs us = .ok ((rowsOf log p).filter (rowMatches us)) := by
  have hsel : s.select p cs us = SimpleStore.selectLoop cs (createDict cs us)
      ((log.filter fun r => decide (r.table = p)).map fun r => createDict r.columns r.values) := by
    rw [← h p]
    simp only [SimpleStore.select]
    cases s.get p <;> rfl
  rw [hsel, selectLoop_eq]
  simp only [rowsOf]
  have hall : ∀ r ∈ log.filter (fun r => decide (r.table = p)), r.columns = cs ∧ cs.Nodup ∧ r.values.length = cs.length ∧
      ∀ v ∈ r.values, v ≠ .none := by
    intro r hr
    simp only [List.mem_filter, decide_eq_true_eq] at hr
    exact hlog r hr.1 hr.2
  generalize log.filter (fun r => decide (r.table = p)) = rs at hall
  have : (rs.filter fun r => @decide (agreesWith cs us r) (Classical.propDecidable _)).mapM (rowOf cs) =
      some ((rs.map LogRecord.values).filter (rowMatches us)) := by
    induction rs with
    | nil => rfl
    | cons r rs ih =>
      have ih := ih fun r hr => hall r (List.mem_cons_of_mem _ hr)
      obtain ⟨h1, h2, h3, h4⟩ := hall r (by simp)
      obtain ⟨t, c, v⟩ := r
      dsimp only at h1 h3 h4
      subst h1
      have ha := agrees_iff_matches (t := t) (us := us) h2 h3 h4
      have hr := rowOf_self (t := t) h2 h3 h4
      simp only [List.filter_cons, List.map_cons]
      by_cases hm : rowMatches us v = true
      · simp only [ha.2 hm, decide_true, if_true, hm, List.mapM_cons, hr, ih]; rfl
      · have hna : ¬ agreesWith c us ⟨t, c, v⟩ := fun h => hm (ha.1 h)
        simp only [hna, decide_false, Bool.false_eq_true, if_false, hm, ih]
  rw [this]

/-- The tables of a memory module. -/
def memoryDb (rels : Dict (List String)) (log : List LogRecord) : Dict (List (List Value)) :=
  rels.map fun pc => (pc.1, rowsOf log pc.1)

theorem memoryDb_get (rels : Dict (List String)) (log : List LogRecord) (p : String) :
    (memoryDb rels log).get p = (rels.get p).map fun _ => rowsOf log p := by
  induction rels with
  | nil => rfl
  | cons pc rels ih =>
    obtain ⟨q, c⟩ := pc
    simp only [memoryDb, List.map_cons, Dict.get_cons] at ih ⊢
    split
    · rename_i e; subst e; rfl
    · exact ih

/-- A memory module all of whose records are complete answers queries from the stored rows. -/
theorem memoryModule_fact (ar : String → Option Nat) (l : Lens W SimpleStore) (w : W) (rels : Dict (List String))
    {log : List LogRecord} (h : Represents (l.get w) log) (hlog : ∀ r ∈ log, RecordOk rels r) :
    FactModule ar w (memoryModule l rels) (memoryDb rels log) := by
  intro p k _
  rw [memoryDb_get]
  cases hr : rels.get p with
  | none => simp [memoryModule, hr]
  | some cs =>
    refine ⟨memoryRelation l p cs, by simp [memoryModule, hr], fun values ctx => ?_⟩
    have hs := select_complete h (p := p) (cs := cs) (fun r hr' e => by
      have h1 := hlog r hr'
      have : r.columns = cs := by
        have := h1.columns
        rw [e, hr] at this
        exact (Option.some.inj this).symm
      exact ⟨this, this ▸ h1.nodup, this ▸ h1.length, h1.values⟩) values
    show memoryQuery l values _ w = _
    unfold memoryQuery
    rw [M.bind_ok (M.gets_run _ w)]
    simp only [hs]
    rfl

end Verif
