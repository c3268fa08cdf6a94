/-!
# Python dictionaries with string keys

An insertion-ordered association list with Python's lookup and assignment.
-/

namespace Verif

/-- A Python `dict` with string keys; order is insertion order (Python ≥ 3.7). -/
abbrev Dict (α : Type) := List (String × α)

namespace Dict

variable {α : Type}

/-- `d.get(k)`; models `d[k]` and `k in d`, e.g. `richard/core/Solver.py:86-91`. -/
def get (d : Dict α) (k : String) : Option α :=
  match d with
  | [] => none
  | (k', v) :: d' => if k' = k then some v else get d' k

/-- `k in d`. -/
def has (d : Dict α) (k : String) : Bool := (get d k).isSome

/-- `d[k] = v`: keeps the position of an existing key, appends a new one. -/
def set (d : Dict α) (k : String) (v : α) : Dict α :=
  match d with
  | [] => [(k, v)]
  | (k', v') :: d' => if k' = k then (k, v) :: d' else (k', v') :: set d' k v

/-- The keys in order. -/
def keys (d : Dict α) : List String := d.map Prod.fst

/-- `d1 | d2`, `d1.update(d2)`: entries of `d2` win. Models `richard/module/CoreModule.py:324`. -/
def union (d1 d2 : Dict α) : Dict α := d2.foldl (fun d kv => set d kv.1 kv.2) d1

/-- `{k: v for (k, v) in d.items() if k not in ks}`; models `richard/module/InferenceModule.py:56`. -/
def without (d : Dict α) (ks : List String) : Dict α := d.filter (fun kv => !ks.contains kv.1)

/-- Python `==` on dictionaries: same keys with the same values, regardless of order.
Models `r in result` in `richard/core/Solver.py:36`. -/
def beq [DecidableEq α] (d1 d2 : Dict α) : Bool :=
  d1.all (fun kv => decide (get d1 kv.1 = get d2 kv.1)) && d2.all (fun kv => decide (get d1 kv.1 = get d2 kv.1))

@[simp] theorem get_nil (k : String) : get ([] : Dict α) k = none := rfl

theorem get_cons (k' : String) (v : α) (d : Dict α) (k : String) :
    get ((k', v) :: d) k = if k' = k then some v else get d k := rfl

theorem get_set (d : Dict α) (k : String) (v : α) (k' : String) :
    get (set d k v) k' = if k = k' then some v else get d k' := by
  induction d with
  | nil => simp [set, get_cons]
  | cons kv d ih =>
    obtain ⟨k0, v0⟩ := kv
    simp only [set]
    split
    · rename_i h; subst h
      simp only [get_cons]
      split <;> rfl
    · rename_i h
      simp only [get_cons, ih]
      by_cases h1 : k0 = k'
      · subst h1; simp [Ne.symm h]
      · simp [h1]

@[simp] theorem get_set_self (d : Dict α) (k : String) (v : α) : get (set d k v) k = some v := by
  simp [get_set]

theorem get_set_of_ne (d : Dict α) {k k' : String} (v : α) (h : k ≠ k') :
    get (set d k v) k' = get d k' := by
  simp [get_set, h]

theorem has_iff (d : Dict α) (k : String) : has d k = true ↔ ∃ v, get d k = some v := by
  simp [has, Option.isSome_iff_exists]

theorem has_false_iff (d : Dict α) (k : String) : has d k = false ↔ get d k = none := by
  simp [has]

theorem get_eq_none_iff (d : Dict α) (k : String) : get d k = none ↔ k ∉ keys d := by
  induction d with
  | nil => simp [keys]
  | cons kv d ih =>
    obtain ⟨k0, v0⟩ := kv
    by_cases h : k0 = k
    · subst h; simp [get_cons, keys]
    · simp only [get_cons, h, if_false, ih, keys, List.map_cons, List.mem_cons, Ne.symm h, false_or]

theorem mem_of_get {d : Dict α} {k : String} {v : α} (h : get d k = some v) : (k, v) ∈ d := by
  induction d with
  | nil => simp at h
  | cons kv d ih =>
    obtain ⟨k0, v0⟩ := kv
    simp only [get_cons] at h
    split at h
    · rename_i e; subst e; simp_all
    · exact List.mem_cons_of_mem _ (ih h)

theorem mem_keys_set (d : Dict α) (k : String) (v : α) (k' : String) : k' ∈ keys (set d k v) ↔ k' = k ∨ k' ∈ keys d := by
  induction d with
  | nil => simp [set, keys]
  | cons kv d ih =>
    obtain ⟨k0, v0⟩ := kv
    simp only [keys] at ih
    simp only [set]
    split
    · rename_i e; subst e; simp [keys]
    · simp only [keys, List.map_cons, List.mem_cons, ih]
      constructor
      · rintro (h | h | h) <;> simp [h]
      · rintro (h | h | h) <;> simp [h]

theorem nodup_keys_set {d : Dict α} (h : (keys d).Nodup) (k : String) (v : α) : (keys (set d k v)).Nodup := by
  induction d with
  | nil => simp [set, keys]
  | cons kv d ih =>
    obtain ⟨k0, v0⟩ := kv
    simp only [keys, List.map_cons, List.nodup_cons] at h
    simp only [set]
    split
    · rename_i e; subst e; simp only [keys, List.map_cons, List.nodup_cons]; exact h
    · rename_i e
      have h1 := ih h.2
      have h2 := mem_keys_set d k v k0
      simp only [keys] at h1 h2
      simp only [keys, List.map_cons, List.nodup_cons, h1, and_true, h2]
      exact fun hh => hh.elim e h.1

theorem get_of_mem {d : Dict α} (h : (keys d).Nodup) {k : String} {v : α} (hm : (k, v) ∈ d) : get d k = some v := by
  induction d with
  | nil => simp at hm
  | cons kv d ih =>
    obtain ⟨k0, v0⟩ := kv
    simp only [keys, List.map_cons, List.nodup_cons] at h
    rcases List.mem_cons.1 hm with e | hm
    · cases e; simp [get_cons]
    · have : k0 ≠ k := fun e => h.1 (e ▸ List.mem_map.2 ⟨_, hm, rfl⟩)
      rw [get_cons, if_neg this]; exact ih h.2 hm

theorem get_without (d : Dict α) (ks : List String) (k : String) :
    get (without d ks) k = if k ∈ ks then none else get d k := by
  induction d with
  | nil => simp [without]
  | cons kv d ih =>
    obtain ⟨k0, v0⟩ := kv
    simp only [without, List.filter_cons] at ih ⊢
    by_cases h : k0 ∈ ks
    · simp only [List.contains_eq_mem, h, decide_true, Bool.not_true, Bool.false_eq_true, if_false]
      simp only [List.contains_eq_mem] at ih
      rw [ih]
      by_cases h2 : k ∈ ks
      · simp [h2]
      · have : k0 ≠ k := fun e => h2 (e ▸ h)
        simp [h2, get_cons, this]
    · simp only [List.contains_eq_mem, h, decide_false, Bool.not_false, if_true, get_cons]
      simp only [List.contains_eq_mem] at ih
      by_cases h2 : k0 = k
      · subst h2; simp [h]
      · simp [h2, ih]

theorem get_union (d1 d2 : Dict α) (k : String) (h : (keys d2).Nodup) :
    get (union d1 d2) k = (match get d2 k with | some v => some v | none => get d1 k) := by
  induction d2 generalizing d1 with
  | nil => rfl
  | cons kv d ih =>
    obtain ⟨k0, v0⟩ := kv
    simp only [keys, List.map_cons, List.nodup_cons] at h
    have hd : (keys d).Nodup := h.2
    show get (union (set d1 k0 v0) d) k = _
    rw [ih _ hd, get_cons]
    by_cases h2 : k0 = k
    · subst h2
      have : get d k0 = none := (get_eq_none_iff d k0).2 h.1
      simp [this]
    · simp only [h2, if_false, get_set]

theorem beq_iff [DecidableEq α] (d1 d2 : Dict α) : beq d1 d2 = true ↔ ∀ k, get d1 k = get d2 k := by
  constructor
  · intro h k
    simp only [beq, Bool.and_eq_true, List.all_eq_true, decide_eq_true_eq] at h
    cases h1 : get d1 k with
    | some v => rw [← h1]; exact h.1 _ (mem_of_get h1)
    | none =>
      cases h2 : get d2 k with
      | none => rfl
      | some v => rw [← h1, ← h2]; exact h.2 _ (mem_of_get h2)
  · intro h
    simp [beq, h]

end Dict

end Verif
