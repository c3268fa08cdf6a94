import Verif.QuantifiedValues

/-!
# The composed meaning of a tree is the query that says what the tree means
-/

namespace Verif

/-- The value stands for a phrase that means `D`. -/
def PhraseValue (ar : String → Option Nat) (P : Program) (R : List String) (s : Sig) (inc : List String) (m n : Nat) (v : Value)
    (D : (Nat → List Value → Prop) → List Value → Prop) : Prop :=
  ∃ (names : List String) (body : List Value) (G : (Nat → List Form) → List Form), names.length = s.slots.length ∧ (∀ t ∈ names, t ∈ R) ∧
    HasBody v names body ∧ Clean R names body ∧ BodyOf names body G ∧ (∀ x ∈ deepVarsAll body, ∃ k, x = genName k) ∧
    GoodPhrase ar P s inc (Fresh m n) G D

/-- A composed child: its value, and the numbers of the generated names before and after it. -/
structure Kid where
  value : Value
  lo : Nat
  hi : Nat

/-- The composed children stand for what these mean. -/
structure KidsGood (ar : String → Option Nat) (P : Program) (R : List String) (sigs : GRule Attachment → Sig) (cs : List (ParseTree Attachment))
    (ks : List Constituent) (ms : List (Option NodeMeaning)) (d : Dict String) (m n : Nat) (L : List Kid) : Prop where
  length : L.length = cs.length
  apart : L.Pairwise fun a b => a.hi ≤ b.lo
  range : ∀ a ∈ L, m ≤ a.lo ∧ a.hi ≤ n
  good : ∀ (i : Nat) c k a D, cs[i]? = some c → ks[i]? = some k → L[i]? = some a → ms[i]? = some (some (.phrase D)) → c.children ≠ [] →
    ∀ inc, mapAll d (argNames k) = .ok inc → inc.Nodup → inc.length = c.rule.ante.args.length →
      PhraseValue ar P R (sigs c.rule) inc a.lo a.hi a.value D

theorem mapAll_ok {d : Dict String} : ∀ {as : List String}, (∀ x ∈ as, ∃ v, d.get x = some v) →
    mapAll d as = .ok (as.map fun x => (d.get x).getD x)
  | [], _ => rfl
  | a :: as, h => by
    obtain ⟨v, hv⟩ := h a (by simp)
    simp only [mapAll, hv, mapAll_ok (as := as) fun x hx => h x (by simp [hx]), List.map_cons, Option.getD_some]

/-- Variables that are arguments of an atom itself are among those that the composer gives a name. -/
theorem outer_items {names : List String} {N : Nat → List String} {C : Nat → List Value} : ∀ {e : List Part} {y : String}, y ∈ e.flatMap outerVars →
    ∃ a ∈ mkAll names N C id e, ∃ items, iterItems a = .ok items ∧ Value.var y ∈ items
  | [], y, h => by simp at h
  | p :: ps, y, h => by
    simp only [List.flatMap_cons, List.mem_append] at h
    rcases h with h | h
    · have hp : ∃ a ∈ mkPart names N C id p, ∃ items, iterItems a = .ok items ∧ Value.var y ∈ items := by
        have hav : ∀ {as : List Value}, y ∈ argVars as → Value.var y ∈ as := by
          intro as hy
          simp only [argVars, List.mem_filterMap] at hy
          obtain ⟨v, hv, he⟩ := hy
          cases v <;> simp at he
          rw [← he]
          exact hv
        cases p with
        | basic b =>
          simp only [mkPart, written_form, List.mem_singleton, exists_eq_left]
          cases b with
          | atom p args => exact ⟨_, rfl, by simpa using hav h⟩
          | equals a c => exact ⟨_, rfl, by simpa using hav h⟩
          | greater a c => exact ⟨_, rfl, by simpa using hav h⟩
          | less a c => exact ⟨_, rfl, by simpa using hav h⟩
          | assign x v =>
            refine ⟨_, rfl, ?_⟩
            simp only [outerVars, Basic.vars, List.mem_cons] at h
            rcases h with h | h
            · simp [h]
            · have := hav h
              simp only [List.mem_singleton] at this
              simp [← this]
        | number k x q n =>
          simp only [mkPart, List.mem_singleton, exists_eq_left, renArg_id]
          refine ⟨_, rfl, ?_⟩
          have := hav h
          simp only [List.mem_singleton] at this
          simp [← this]
        | all x r q =>
          simp only [mkPart, List.mem_singleton, exists_eq_left]
          refine ⟨_, rfl, ?_⟩
          simp only [outerVars, List.mem_singleton] at h
          simp [h]
        | quant => simp [outerVars] at h
        | hole => simp [outerVars] at h
        | app => simp [outerVars] at h
      obtain ⟨a, ha, hi⟩ := hp
      exact ⟨a, by simp [mkAll, ha], hi⟩
    · obtain ⟨a, ha, hi⟩ := outer_items (names := names) (N := N) (C := C) h
      exact ⟨a, by simp [mkAll, ha], hi⟩

mutual
/-- The arguments of a consequent that is used are different. -/
theorem kid_nodup_part {Γ : Typing} {i : Nat} : ∀ {p : Part} {K T : List String}, fitsPart Γ p K T = true → i ∈ kidsOf p → (Γ.args i).Nodup
  | .basic b, K, T, _, hi => by simp [kidsOf] at hi
  | .quant k xs q, K, T, h, hi => by
    simp only [fitsPart, Bool.and_eq_true] at h
    exact kid_nodup h.1.1.1 hi
  | .number k x q n, K, T, h, hi => by
    simp only [fitsPart, Bool.and_eq_true] at h
    exact kid_nodup h.1.1.1.1.1.1 hi
  | .all x r q, K, T, h, hi => by
    simp only [fitsPart, Bool.and_eq_true] at h
    simp only [kidsOf, List.mem_append] at hi
    rcases hi with hi | hi
    · exact kid_nodup h.1.1.1.1.1.1.2 hi
    · exact kid_nodup h.1.1.1.2 hi
  | .hole j, K, T, _, hi => by simp [kidsOf] at hi
  | .app i' es, K, T, h, hi => by
    simp only [fitsPart, Bool.and_eq_true, decide_eq_true_eq] at h
    simp only [kidsOf, List.mem_cons] at hi
    rcases hi with hi | hi
    · rw [hi]
      exact h.1.1.1
    · exact kid_nodup_many h.2 hi
theorem kid_nodup {Γ : Typing} {i : Nat} : ∀ {ps : List Part} {K T : List String}, fitsAll Γ ps K T = true → i ∈ kidsAll ps → (Γ.args i).Nodup
  | [], K, T, _, hi => by simp [kidsAll] at hi
  | p :: ps, K, T, h, hi => by
    simp only [fitsAll, Bool.and_eq_true] at h
    simp only [kidsAll, List.mem_append] at hi
    rcases hi with hi | hi
    · exact kid_nodup_part h.1 hi
    · exact kid_nodup h.2 hi
theorem kid_nodup_many {Γ : Typing} {i i' : Nat} : ∀ {es : List (List Part)} {j : Nat} {K T : List String}, fitsMany Γ i' j es K T = true →
    i ∈ kidsMany es → (Γ.args i).Nodup
  | [], j, K, T, _, hi => by simp [kidsMany] at hi
  | e :: es, j, K, T, h, hi => by
    simp only [fitsMany, Bool.and_eq_true] at h
    simp only [kidsMany, List.mem_append] at hi
    rcases hi with hi | hi
    · exact kid_nodup h.1.1.1.1.1.1.1 hi
    · exact kid_nodup_many h.2 hi
end

mutual
theorem shaped_congr {L L' : Nat → Nat} : ∀ (p : Part), (∀ i ∈ kidsOf p, L i = L' i) → shaped L p = shaped L' p
  | .basic b, _ => rfl
  | .quant k xs q, h => shapedAll_congr q h
  | .number k x q n, h => by simp only [shaped, shapedAll_congr q h]
  | .all x r q, h => by
    simp only [shaped, shapedAll_congr r fun i hi => h i (by simp [kidsOf, hi]), shapedAll_congr q fun i hi => h i (by simp [kidsOf, hi])]
  | .hole j, _ => rfl
  | .app i es, h => by
    simp only [shaped, h i (by simp [kidsOf]), shapedMany_congr es fun i hi => h i (by simp [kidsOf, hi])]
theorem shapedAll_congr {L L' : Nat → Nat} : ∀ (ps : List Part), (∀ i ∈ kidsAll ps, L i = L' i) → shapedAll L ps = shapedAll L' ps
  | [], _ => rfl
  | p :: ps, h => by
    simp only [shapedAll, shaped_congr p fun i hi => h i (by simp [kidsAll, hi]), shapedAll_congr ps fun i hi => h i (by simp [kidsAll, hi])]
theorem shapedMany_congr {L L' : Nat → Nat} : ∀ (es : List (List Part)), (∀ i ∈ kidsMany es, L i = L' i) → shapedMany L es = shapedMany L' es
  | [], _ => rfl
  | e :: es, h => by
    simp only [shapedMany, shapedAll_congr e fun i hi => h i (by simp [kidsMany, hi]), shapedMany_congr es fun i hi => h i (by simp [kidsMany, hi])]
end

theorem nodup_map_on {ρ : String → String} : ∀ {xs : List String}, xs.Nodup → (∀ x ∈ xs, ∀ y ∈ xs, ρ x = ρ y → x = y) → (xs.map ρ).Nodup
  | [], _, _ => List.nodup_nil
  | x :: xs, h, hi => by
    rw [List.nodup_cons] at h
    rw [List.map_cons, List.nodup_cons]
    refine ⟨fun hm => ?_, nodup_map_on h.2 fun a ha b hb => hi a (by simp [ha]) b (by simp [hb])⟩
    obtain ⟨y, hy, he⟩ := List.mem_map.1 hm
    rw [hi y (by simp [hy]) x (by simp) he] at hy
    exact h.1 hy

theorem namesSlots_slots : ∀ (names : List String), NamesSlots (names.map slot) names
  | [] => trivial
  | _ :: names => ⟨⟨[], .inl rfl⟩, namesSlots_slots names⟩

/-- What is chosen for each consequent. -/
structure KidData where
  names : List String
  body : List Value
  G : (Nat → List Form) → List Form

section
variable {ar : String → Option Nat} {P : Program} {R : List String} {sigs : GRule Attachment → Sig} {spec : GRule Attachment → List Value → RuleParts}

/-- A node whose rule builds from parts. The names of the variables are in `d'`. -/
theorem node_parts_map {cs : List (ParseTree Attachment)} {r : GRule Attachment} {ms : List (Option NodeMeaning)} {names : List String} {e : List Part}
    (hnames : ∀ x ∈ formalNames r, isGenName x = false) (hnd : (argNames r.ante).Nodup)
    {sg : Sig} (hp : PartsOk ar R sigs cs ms sg r names e) {inc : List String} (hinc : inc.Nodup) (hlen : inc.length = r.ante.args.length)
    {g g1 g2 g3 : Gen} {d d' : Dict String} (hold : ∀ v ∈ inc, Fresh 0 g.number v) (hd : createMap r inc g = .ok g1 d)
    (hg2 : g1.number ≤ g2.number) {L : List Kid} (hk : KidsGood ar P R sigs cs r.cons ms d g1.number g2.number L)
    (hg3 : g2.number ≤ g3.number) (x1 : Grows d d' g2.number g3.number) (x3 : ∀ x v, d'.get x = some v → d.get x = none → isGenName x = false)
    (x2 : (∀ y ∈ everyVarAll (consArgs r) (argNames r.ante) e, y ∈ formalNames r) ∨ ∀ as, evalAll names (fun i => (L.map Kid.value).getD i .none) e = .ok as → names = [] →
      ∀ a ∈ as, ∃ items, iterItems a = .ok items ∧ ∀ x, Value.var x ∈ items → (∃ v, d'.get x = some v) ∨ isGenName x = true) :
    ∃ us, evalAll names (fun i => (L.map Kid.value).getD i .none) e = .ok us ∧
      PhraseValue ar P R sg inc g.number g3.number (unify d' (wrapUp names us)) (phraseDen P (consArgs r) (phraseAt ms) (argNames r.ante) e) := by
  have hg1 := (advances_createMap _ _).le hd
  obtain ⟨m1, m2, m3, m4⟩ := createMap_spec hd
  have hante : ∀ (j : Nat) a, (argNames r.ante)[j]? = some a → ∃ v, inc[j]? = some v ∧ d.get a = some v := by
    intro j a hj
    refine m1 a j ⟨hj, fun k hk hk' => ?_⟩
    have := (List.getElem?_inj (List.getElem?_eq_some_iff.1 hj).1 hnd).1 (hj.trans hk'.symm)
    omega
  have hdold : OldMap d g1.number := by
    intro x v hxv
    by_cases ha : x ∈ argNames r.ante
    · obtain ⟨j, hj⟩ := List.getElem?_of_mem ha
      obtain ⟨u, hu1, hu2⟩ := hante j x hj
      rw [hxv] at hu2; cases hu2
      exact (hold v (List.mem_of_getElem? hu1)).mono (Nat.le_refl _) hg1
    · exact (m2 x v hxv ha).1.mono (Nat.zero_le _) (Nat.le_refl _)
  have hkeys : ∀ x, isGenName x = true → d'.get x = none := by
    intro x hgx
    cases hv : d'.get x with
    | none => rfl
    | some v =>
      exfalso
      rcases x1.fresh x v hv with h | ⟨h, _⟩
      · have : x ∈ formalNames r := by
          by_cases ha : x ∈ argNames r.ante
          · simp [formalNames, ha]
          · obtain ⟨_, k, hk, hxk⟩ := m2 x v h ha
            simp only [formalNames, List.mem_append, List.mem_flatMap]
            exact .inr ⟨k, hk, hxk⟩
        rw [hnames x this] at hgx; simp at hgx
      · rw [x3 x v hv h] at hgx; simp at hgx
  have hsrc : ∀ x v, d'.get x = some v → (x ∈ argNames r.ante ∧ d.get x = some v ∧ v ∈ inc) ∨
      (x ∉ argNames r.ante ∧ Fresh g.number g3.number v) := by
    intro x v hv
    rcases x1.fresh x v hv with h | ⟨h, hf⟩
    · by_cases ha : x ∈ argNames r.ante
      · obtain ⟨j, hj⟩ := List.getElem?_of_mem ha
        obtain ⟨u, hu1, hu2⟩ := hante j x hj
        rw [h] at hu2; cases hu2
        exact .inl ⟨ha, h, List.mem_of_getElem? hu1⟩
      · exact .inr ⟨ha, (m2 x v h ha).1.mono (Nat.le_refl _) (Nat.le_trans hg2 hg3)⟩
    · refine .inr ⟨fun ha => ?_, hf.mono (Nat.le_trans hg1 hg2) (Nat.le_refl _)⟩
      obtain ⟨j, hj⟩ := List.getElem?_of_mem ha
      obtain ⟨u, _, hu2⟩ := hante j x hj
      rw [h] at hu2; cases hu2
  have hinj : ∀ x y v, d'.get x = some v → d'.get y = some v → x = y := by
    intro x y v hxv hyv
    rcases hsrc x v hxv with ⟨hxa, hx1, hx2⟩ | ⟨hxa, hxf⟩ <;> rcases hsrc y v hyv with ⟨hya, hy1, hy2⟩ | ⟨hya, hyf⟩
    · obtain ⟨j, hj⟩ := List.getElem?_of_mem hxa
      obtain ⟨k, hk⟩ := List.getElem?_of_mem hya
      obtain ⟨u, hu1, hu2⟩ := hante j x hj
      obtain ⟨w, hw1, hw2⟩ := hante k y hk
      rw [hx1] at hu2; cases hu2
      rw [hy1] at hw2; cases hw2
      have := (List.getElem?_inj (List.getElem?_eq_some_iff.1 hu1).1 hinc).1 (hu1.trans hw1.symm)
      subst this
      rw [hj] at hk
      exact Option.some.inj hk
    · exact absurd hyf ((hold v hx2).disjoint · (Nat.le_refl _))
    · exact absurd hxf ((hold v hy2).disjoint · (Nat.le_refl _))
    · rcases x1.fresh x v hxv with h | ⟨h, hf⟩ <;> rcases x1.fresh y v hyv with h' | ⟨h', hf'⟩
      · exact m3 x y v h h' hxa hya
      · exact absurd hf' fun hf' => (hdold x v h).disjoint hf' hg2
      · exact absurd hf fun hf => (hdold y v h').disjoint hf hg2
      · exact x1.inj x y v hxv hyv h h'
  let ρ : String → String := fun x => (d'.get x).getD x
  have hρ : ∀ x v, d'.get x = some v → ρ x = v := fun x v h => by simp [ρ, h]
  have hdρ : ∀ x v, d.get x = some v → ρ x = v := fun x v h => hρ x v (x1.keep x v h)
  have hincρ : (argNames r.ante).map ρ = inc := by
    apply List.ext_getElem?
    intro j
    rw [List.getElem?_map]
    cases hj : (argNames r.ante)[j]? with
    | none =>
      rw [List.getElem?_eq_none_iff] at hj
      rw [Option.map_none, eq_comm, List.getElem?_eq_none_iff]
      rw [argNames, List.length_map] at hj
      omega
    | some a =>
      obtain ⟨v, h1, h2⟩ := hante j a hj
      rw [Option.map_some, h1, hdρ a v h2]
  have hfit := hp.fits
  have hfits : fitsAll (typingOf ar sigs cs sg r) e (knownAtStart sg.modes (argNames r.ante)) (maybeAtStart sg.modes (argNames r.ante)) = true := by
    simp only [fitsRule, Bool.and_eq_true] at hfit
    exact hfit.1.1.2
  have hshape := shapedAll_of_fits hfits
  -- the consequents
  have hargs : ∀ i ∈ kidsAll e, ∀ x ∈ consArgs r i, ∃ v, d.get x = some v := by
    intro i hi x hxi
    obtain ⟨c, k, D, _, h2, _⟩ := hp.kids i hi
    simp only [consArgs, h2] at hxi
    exact m4 k (List.mem_of_getElem? h2) x hxi
  have hmapped : ∀ i ∈ kidsAll e, (consArgs r i).map (fun x => (d.get x).getD x) = (consArgs r i).map ρ := by
    intro i hi
    apply List.map_congr_left
    intro x hxi
    obtain ⟨v, hv⟩ := hargs i hi x hxi
    rw [hdρ x v hv, hv]
    rfl
  have hkid : ∀ i, ∃ K : KidData, (∀ t ∈ K.names, t ∈ R) ∧ (i ∈ kidsAll e → ∃ a, L[i]? = some a ∧
      K.names.length = ((typingOf ar sigs cs sg r).sig i).slots.length ∧
      HasBody a.value K.names K.body ∧ Clean R K.names K.body ∧ BodyOf K.names K.body K.G ∧ (∀ x ∈ deepVarsAll K.body, ∃ k, x = genName k) ∧
      GoodPhrase ar P ((typingOf ar sigs cs sg r).sig i) ((consArgs r i).map ρ) (Fresh a.lo a.hi) K.G (phraseAt ms i)) := by
    intro i
    by_cases hi : i ∈ kidsAll e
    · obtain ⟨c, k, D, h1, h2, h3, h4, h5⟩ := hp.kids i hi
      obtain ⟨a, ha⟩ : ∃ a, L[i]? = some a := by
        have : i < L.length := by
          rw [hk.length]
          exact (List.getElem?_eq_some_iff.1 h1).1
        exact ⟨_, List.getElem?_eq_getElem this⟩
      have hca : consArgs r i = argNames k := by simp [consArgs, h2]
      have hmo := mapAll_ok (d := d) (hargs i hi)
      rw [hmapped i hi, hca] at hmo
      have hev : ∀ x ∈ argNames k, ∃ v, d'.get x = some v := by
        intro x hxk
        obtain ⟨v, hv⟩ := m4 k (List.mem_of_getElem? h2) x hxk
        exact ⟨v, x1.keep x v hv⟩
      have hknd : (argNames k).Nodup := by
        have := kid_nodup hfits hi
        simpa [typingOf, hca] using this
      have hnd' : ((argNames k).map ρ).Nodup := by
        apply nodup_map_on hknd
        intro x hx1 y hy1 hxy
        obtain ⟨v, hv⟩ := hev x hx1
        obtain ⟨w, hw⟩ := hev y hy1
        rw [hρ x v hv, hρ y w hw] at hxy
        subst hxy
        exact hinj x y v hv hw
      obtain ⟨ns, body, G, q1, q2, q3, q4, q5, q6, q7⟩ := hk.good i c k a D h1 h2 ha h4 h3 _ hmo hnd' (by simp [argNames, h5])
      refine ⟨⟨ns, body, G⟩, q2, fun _ => ⟨a, ha, ?_, q3, q4, q5, q6, ?_⟩⟩
      · simpa [typingOf, h1] using q1
      · simpa [typingOf, h1, hca, phraseAt, h4] using q7
    · exact ⟨⟨[], [], fun _ => []⟩, by simp, fun h => absurd h hi⟩
  obtain ⟨K, hK⟩ := Classical.skolem.1 hkid
  have hKl : (fun i => (K i).names.length) = fun i => (K i).names.length := rfl
  have hshape' : shapedAll (fun i => (K i).names.length) e = true := by
    rw [← hshape]
    refine shapedAll_congr e fun i hi => ?_
    obtain ⟨a, _, h, _⟩ := (hK i).2 hi
    exact h
  have hval : ∀ i ∈ kidsAll e, Clean R (K i).names (K i).body ∧ HasBody ((L.map Kid.value).getD i .none) (K i).names (K i).body := by
    intro i hi
    obtain ⟨a, ha, _, h1, h2, _⟩ := (hK i).2 hi
    refine ⟨h2, ?_⟩
    have : (L.map Kid.value).getD i .none = a.value := by simp [List.getD, ha]
    rw [this]
    exact h1
  have hev := eval_all (names := names) (N := fun i => (K i).names) (C := fun i => (K i).body) (fun i => (hK i).1) e hshape' hval hp.texts
  -- all variables of the parts have a name
  have hvar : ∀ y ∈ argNames r.ante ++ everyVarAll (consArgs r) (argNames r.ante) e, ∃ v, d'.get y = some v := by
    intro y hy
    have hformal : ∀ y ∈ formalNames r, ∃ v, d'.get y = some v := by
      intro y hy
      simp only [formalNames, List.mem_append, List.mem_flatMap] at hy
      rcases hy with hy | ⟨k, hk1, hy⟩
      · obtain ⟨j, hj⟩ := List.getElem?_of_mem hy
        obtain ⟨v, _, hv⟩ := hante j y hj
        exact ⟨v, x1.keep y v hv⟩
      · obtain ⟨v, hv⟩ := m4 k hk1 y hy
        exact ⟨v, x1.keep y v hv⟩
    rcases List.mem_append.1 hy with hy | hy
    · exact hformal y (by simp [formalNames, hy])
    · rcases hp.vars y hy with h | ⟨h1, h2⟩
      · exact hformal y h
      · rcases x2 with x2 | x2
        · exact hformal y (x2 y hy)
        subst h1
        obtain ⟨a, ha, items, hi, hm⟩ := outer_items (names := []) (N := fun i => (K i).names) (C := fun i => (K i).body) h2
        obtain ⟨items', hi', hv⟩ := x2 _ hev rfl a ha
        rw [hi] at hi'
        cases hi'
        rcases hv y hm with h | h
        · exact h
        · rw [hp.own y hy] at h; simp at h
  have hgen : ∀ y ∈ argNames r.ante ++ everyVarAll (consArgs r) (argNames r.ante) e, ∃ k, ρ y = genName k := by
    intro y hy
    obtain ⟨v, hv⟩ := hvar y hy
    rw [hρ y v hv]
    rcases hsrc y v hv with ⟨_, _, h⟩ | ⟨_, h⟩
    · obtain ⟨k, _, _, h⟩ := hold v h
      exact ⟨k, h⟩
    · obtain ⟨k, _, _, h⟩ := h
      exact ⟨k, h⟩
  have hun := unify_all (names := names) (N := fun i => (K i).names) (C := fun i => (K i).body) (ρ := ρ) d' (fun x => rfl) e hshape'
    (fun i hi x hxb => by
      obtain ⟨a, _, _, _, _, _, h, _⟩ := (hK i).2 hi
      obtain ⟨k, rfl⟩ := h x hxb
      exact hkeys _ (isGenName_genName k))
  have hslots : SlotsOk R names (fun i => (K i).names) (fun i => (K i).body) (fun i => (K i).G) (kidsAll e) :=
    ⟨hp.nodup, hp.reserved, fun i hi => (hval i hi).1, fun i hi => by
      obtain ⟨a, _, _, _, _, h, _⟩ := (hK i).2 hi
      exact h⟩
  refine ⟨_, hev, names, mkAll names (fun i => (K i).names) (fun i => (K i).body) ρ e, fun H => plugAll (fun i => (K i).G) H ρ e, hp.slots, hp.reserved, ?_, ?_, ?_, ?_, ?_⟩
  · simp only [HasBody, wrapUp]
    by_cases hn : names = []
    · subst hn
      simp only [List.isEmpty_nil, if_true, unify, hun]
    · have : names.isEmpty = false := by simpa using hn
      simp only [this, Bool.false_eq_true, if_false, hn, unify, hun]
      exact ⟨_, rfl, namesSlots_slots names⟩
  · intro t ht hR
    obtain ⟨j, hj, rfl⟩ := mkAll_slots hR e hshape' (fun i hi => (hval i hi).1) hp.texts ht
    have := hp.holes j hj
    simp [List.getD, this]
  · intro H
    exact mkAll_form H e hslots hshape' hp.texts hp.holes
  · intro x hxm
    rcases mkAll_vars (args := consArgs r) (ante := argNames r.ante) e hshape' hxm with ⟨y, hy, rfl⟩ | ⟨i, hi, hxi⟩
    · exact hgen y (by simp [hy])
    · obtain ⟨a, _, _, _, _, _, h, _⟩ := (hK i).2 hi
      exact h x hxi
  · let own : Nat → String → Prop := fun i x => ∃ a, L[i]? = some a ∧ Fresh a.lo a.hi x
    have hrule := good_rule (Γ := typingOf ar sigs cs sg r) (P := P) (s := sg) (e := e) hfit rfl (ρ := ρ) (G := fun i => (K i).G) (D := phraseAt ms)
      (own := own) (own' := Fresh g.number g3.number)
      (fun y hy y' hy' hyy => by
        obtain ⟨v, hv⟩ := hvar y hy
        obtain ⟨w, hw⟩ := hvar y' hy'
        rw [hρ y v hv, hρ y' w hw] at hyy
        subst hyy
        exact hinj y y' v hv hw)
      (fun i hi => by
        obtain ⟨a, ha, _, _, _, _, _, h⟩ := (hK i).2 hi
        have : own i = Fresh a.lo a.hi := by
          funext x
          simp [own, ha]
        rw [this]
        exact h)
      (fun i hi x hxo y hy hxy => by
        obtain ⟨a, ha, hf⟩ := hxo
        obtain ⟨h1, h2⟩ := hk.range a (List.mem_of_getElem? ha)
        obtain ⟨v, hv⟩ := hvar y hy
        rw [hρ y v hv] at hxy
        subst hxy
        rcases x1.fresh y x hv with h | ⟨h, hf'⟩
        · exact (hdold y x h).disjoint hf h1
        · exact hf.disjoint hf' h2)
      (fun i hi i' hi' hne x hxo hxo' => by
        obtain ⟨a, ha, hf⟩ := hxo
        obtain ⟨a', ha', hf'⟩ := hxo'
        have hpw := List.pairwise_iff_getElem.1 hk.apart
        obtain ⟨hlt, rfl⟩ := List.getElem?_eq_some_iff.1 ha
        obtain ⟨hlt', rfl⟩ := List.getElem?_eq_some_iff.1 ha'
        rcases Nat.lt_or_gt_of_ne hne with h | h
        · exact hf.disjoint hf' (hpw i i' hlt hlt' h)
        · exact hf'.disjoint hf (hpw i' i hlt' hlt h))
      (fun i hi x hxo => by
        obtain ⟨a, ha, hf⟩ := hxo
        obtain ⟨h1, h2⟩ := hk.range a (List.mem_of_getElem? ha)
        exact hf.mono (Nat.le_trans hg1 h1) (Nat.le_trans h2 hg3))
      (fun y hy hya => by
        obtain ⟨v, hv⟩ := hvar y (List.mem_append_right _ hy)
        rw [hρ y v hv]
        rcases hsrc y v hv with ⟨h, _⟩ | ⟨_, h⟩
        · exact absurd h hya
        · exact h)
    have : (typingOf ar sigs cs sg r).ante.map ρ = inc := hincρ
    rw [this] at hrule
    exact hrule

/-- A node whose rule builds from parts. -/
theorem node_parts {cs : List (ParseTree Attachment)} {r : GRule Attachment} {ms : List (Option NodeMeaning)} {names : List String} {e : List Part}
    (hnames : ∀ x ∈ formalNames r, isGenName x = false) (hnd : (argNames r.ante).Nodup)
    {sg : Sig} (hp : PartsOk ar R sigs cs ms sg r names e) {inc : List String} (hinc : inc.Nodup) (hlen : inc.length = r.ante.args.length)
    {g g1 g2 g3 : Gen} {d d' : Dict String} (hold : ∀ v ∈ inc, Fresh 0 g.number v) (hd : createMap r inc g = .ok g1 d)
    (hg2 : g1.number ≤ g2.number) {L : List Kid} (hk : KidsGood ar P R sigs cs r.cons ms d g1.number g2.number L)
    {s : Value} (hs : ∀ us, evalAll names (fun i => (L.map Kid.value).getD i .none) e = .ok us → s = wrapUp names us)
    (hx : extendMap d s g2 = .ok g3 d') :
    PhraseValue ar P R sg inc g.number g3.number (unify d' s) (phraseDen P (consArgs r) (phraseAt ms) (argNames r.ante) e) := by
  obtain ⟨x1, x2, x3⟩ := extendMap_grows hx
  obtain ⟨us, h1, h2⟩ := node_parts_map hnames hnd hp hinc hlen hold hd hg2 hk ((advances_extendMap _ _).le hx) x1 x3
    (.inr fun as ha hn => x2 as (by rw [hs as ha, hn]; rfl))
  rw [hs us h1]
  exact h2

/-- One more child before the others. -/
theorem KidsGood.cons {c : ParseTree Attachment} {cs : List (ParseTree Attachment)} {k : Constituent} {ks : List Constituent}
    {m0 : Option NodeMeaning} {ms : List (Option NodeMeaning)} {d : Dict String} {m l n : Nat} {L : List Kid} {v : Value} (hml : m ≤ l) (hln : l ≤ n)
    (h : KidsGood ar P R sigs cs ks ms d l n L)
    (h0 : ∀ D, m0 = some (.phrase D) → c.children ≠ [] → ∀ inc, mapAll d (argNames k) = .ok inc → inc.Nodup → inc.length = c.rule.ante.args.length →
      PhraseValue ar P R (sigs c.rule) inc m l v D) :
    KidsGood ar P R sigs (c :: cs) (k :: ks) (m0 :: ms) d m n (⟨v, m, l⟩ :: L) where
  length := by simp [h.length]
  apart := List.pairwise_cons.2 ⟨fun b hb => (h.range b hb).1, h.apart⟩
  range := by
    intro a ha
    rcases List.mem_cons.1 ha with rfl | ha
    · exact ⟨Nat.le_refl _, hln⟩
    · exact ⟨Nat.le_trans hml (h.range a ha).1, (h.range a ha).2⟩
  good := by
    intro i c' k' a D h1 h2 h3 h4 h5 inc h6 h7 h8
    cases i with
    | zero =>
      simp only [List.getElem?_cons_zero, Option.some.injEq] at h1 h2 h3 h4
      subst h1 h2 h3
      exact h0 D h4 h5 inc h6 h7 h8
    | succ i => exact h.good i c' k' a D (by simpa using h1) (by simpa using h2) (by simpa using h3) (by simpa using h4) h5 inc h6 h7 h8

/-- What composition of a tree gives. -/
def TreeGood (ar : String → Option Nat) (P : Program) (R : List String) (sigs : GRule Attachment → Sig)
    (spec : GRule Attachment → List Value → RuleParts) (t : ParseTree Attachment) (inc : List String) (m n : Nat) (v : Value) : Prop :=
  (∀ u, nodeMeaning P spec t = .value u → v = u) ∧
  ∀ D, nodeMeaning P spec t = .phrase D → inc.Nodup → inc.length = t.rule.ante.args.length → PhraseValue ar P R (sigs t.rule) inc m n v D

mutual
theorem compose_good : ∀ (t : ParseTree Attachment) (inc : List String) (g g' : Gen) (c : Composed), t.children ≠ [] → SpecTree ar P R sigs spec t →
    (∀ v ∈ inc, Fresh 0 g.number v) → compose t inc g = .ok g' c → TreeGood ar P R sigs spec t inc g.number g'.number c.sem
  | .node cat cs form r, inc, g, g', c, hne, ht, hold, h => by
    simp only [SpecTree] at ht
    obtain ⟨hc, hcs⟩ := ht
    have hc := hc hne
    unfold compose at h
    rw [M.bind_eq_ok] at h
    obtain ⟨g1, d, hd, h⟩ := h
    rw [M.bind_eq_ok] at h
    obtain ⟨g2, parts, hp, h⟩ := h
    have hg1 := (advances_createMap _ _).le hd
    have hg2 := (advances_composeChildren _ _ _ _ _).le hp
    obtain ⟨m1, m2, _, _⟩ := createMap_spec hd
    have hdold : OldMap d g1.number := by
      intro x v hx
      by_cases ha : x ∈ argNames r.ante
      · obtain ⟨j, hj⟩ := LastArg.exists ha
        obtain ⟨u, hu1, hu2⟩ := m1 x j hj
        rw [hx] at hu2
        cases hu2
        exact (hold v (List.mem_of_getElem? hu1)).mono (Nat.le_refl _) hg1
      · exact (m2 x v hx ha).1.mono (Nat.zero_le _) (Nat.le_refl _)
    obtain ⟨L, hL, hk⟩ := composeChildren_good cs r.cons d 0 ⟨[], [], [], []⟩ g1 g2 parts hcs hc.length hdold hp
    cases hsem : semOf r.sem with
    | none => simp [hsem] at h
    | some f =>
      simp only [hsem, M.bind_eq_ok, M.lift_eq_ok, M.pure_eq_ok] at h
      obtain ⟨_, s, ⟨rfl, hf⟩, _, ex, ⟨rfl, _⟩, _, dg, ⟨rfl, _⟩, g3, d', hx, rfl, rfl⟩ := h
      simp only [List.nil_append] at hL
      rw [hL] at hf
      have hl' : (L.map Kid.value).length = cs.length := by simp [hk.length]
      refine ⟨fun u hu => ?_, fun D hD hnd hlen => ?_⟩
      · simp only [nodeMeaning] at hu
        cases hsp : spec r (valuesIn (nodeMeanings P spec cs)) with
        | parts names e => simp [hsp] at hu
        | value v =>
          simp only [hsp, NodeMeaning.value.injEq] at hu
          obtain ⟨h1, h2⟩ := hc.value v hsp
          have := h2 f hsem _ s hl' hf
          rw [← hu, this]
          exact unify_keep d' v (by simp [h1])
      · simp only [nodeMeaning] at hD
        cases hsp : spec r (valuesIn (nodeMeanings P spec cs)) with
        | value v => simp [hsp] at hD
        | parts names e =>
          simp only [hsp, NodeMeaning.phrase.injEq] at hD
          obtain ⟨h1, h2⟩ := hc.parts names e hsp
          rw [← hD]
          exact node_parts hc.names hc.nodup h1 hnd hlen hold hd hg2 hk (fun us hus => h2 f hsem _ us s hl' hus hf) hx
theorem composeChildren_good : ∀ (cs : List (ParseTree Attachment)) (ks : List Constituent) (d : Dict String) (i : Nat)
    (acc : ChildParts) (g g' : Gen) (parts : ChildParts), SpecTrees ar P R sigs spec cs → ks.length = cs.length →
    OldMap d g.number → composeChildren cs ks d i acc g = .ok g' parts →
    ∃ L : List Kid, parts.sems = acc.sems ++ childArgs (nodeMeanings P spec cs) (L.map Kid.value) ∧
      KidsGood ar P R sigs cs ks (nodeMeanings P spec cs) d g.number g'.number L
  | [], ks, d, i, acc, g, g', parts, _, _, _, h => by
    simp only [composeChildren, M.pure_eq_ok] at h
    obtain ⟨rfl, rfl⟩ := h
    refine ⟨[], by simp [nodeMeanings, childArgs], ⟨rfl, List.Pairwise.nil, by simp, by simp⟩⟩
  | _ :: _, [], d, i, acc, g, g', parts, _, hl, _, h => by simp at hl
  | .node cat cs form r :: rest, k :: ks, d, i, acc, g, g', parts, hc, hl, hd, h => by
    simp only [SpecTrees] at hc
    obtain ⟨hc1, hc2⟩ := hc
    have hl' : ks.length = rest.length := by simpa using hl
    cases cs with
    | nil =>
      have hle := (advances_composeChildren _ _ _ _ _).le h
      unfold composeChildren at h
      simp only [List.isEmpty_nil, if_true] at h
      cases hsem : semOf r.sem with
      | none =>
        simp only [hsem] at h
        obtain ⟨L, a2, a3⟩ := composeChildren_good rest ks d (i + 1) acc g g' parts hc2 hl' hd h
        refine ⟨⟨.none, g.number, g.number⟩ :: L, ?_, ?_⟩
        · simp [a2, nodeMeanings, leafSem, hsem, childArgs]
        · rw [nodeMeanings]
          exact a3.cons (Nat.le_refl _) hle (fun D hD hne => absurd rfl hne)
      | some f =>
        simp only [hsem, M.bind_eq_ok, M.lift_eq_ok] at h
        obtain ⟨g1, s, ⟨rfl, hf⟩, h⟩ := h
        obtain ⟨L, a2, a3⟩ := composeChildren_good rest ks d (i + 1) _ g g' parts hc2 hl' hd h
        refine ⟨⟨.none, g.number, g.number⟩ :: L, ?_, ?_⟩
        · simp [a2, nodeMeanings, leafSem, hsem, hf, childArgs]
        · rw [nodeMeanings]
          exact a3.cons (Nat.le_refl _) hle (fun D hD hne => absurd rfl hne)
    | cons c0 cs0 =>
      unfold composeChildren at h
      simp only [List.isEmpty_cons, Bool.false_eq_true, if_false, M.bind_eq_ok, M.lift_eq_ok] at h
      obtain ⟨g1, inc, ⟨rfl, hinc⟩, g2, c, hcomp, h⟩ := h
      have hle1 := (advances_compose _ _).le hcomp
      have hle2 := (advances_composeChildren _ _ _ _ _).le h
      obtain ⟨hlen, hget⟩ := mapAll_get hinc
      have hincold : ∀ v ∈ inc, Fresh 0 g.number v := by
        intro v hv
        obtain ⟨j, hj⟩ := List.getElem?_of_mem hv
        have hlt : j < (argNames k).length := by rw [← hlen]; exact (List.getElem?_eq_some_iff.1 hj).1
        obtain ⟨u, hu1, hu2⟩ := hget j (argNames k)[j] (by simp [hlt])
        rw [hj] at hu2; cases hu2
        exact hd _ _ hu1
      obtain ⟨t1, t2⟩ := compose_good (.node cat (c0 :: cs0) form r) inc g g2 c (by simp [ParseTree.children]) hc1 hincold hcomp
      obtain ⟨L, a2, a3⟩ := composeChildren_good rest ks d (i + 1) _ g2 g' parts hc2 hl'
        (fun x v hx => (hd x v hx).mono (Nat.le_refl _) hle1) h
      refine ⟨⟨c.sem, g.number, g2.number⟩ :: L, ?_, ?_⟩
      · simp only [a2, nodeMeanings, List.isEmpty_cons, Bool.false_eq_true, if_false, List.map_cons, List.append_assoc, List.singleton_append]
        congr 1
        cases hm : nodeMeaning P spec (.node cat (c0 :: cs0) form r) with
        | value u => rw [childArgs, t1 u hm]
        | phrase D => rw [childArgs]
      · rw [nodeMeanings]
        refine a3.cons hle1 hle2 fun D hD _ inc' hinc' hnd hlen' => ?_
        simp only [List.isEmpty_cons, Bool.false_eq_true, if_false, Option.some.injEq] at hD
        rw [hinc] at hinc'
        cases hinc'
        exact t2 D hD hnd hlen'
end

end

end Verif
