import Verif.ComposerLemmas

/-!
# Which variables of a parse tree the composer identifies
-/

namespace Verif

/-- A formal variable of a node: position of the node in the tree, name. -/
abbrev NodeVar := List Nat × String

/-- Grammar rules connect an argument of a consequent with the argument of the antecedent of the rule used for it. If the
antecedent repeats a name, the last position counts. -/
inductive Edge : ParseTree Attachment → NodeVar → NodeVar → Prop
  | here {cat cs form r} {i j : Nat} {k : Constituent} {c : ParseTree Attachment} {x y : String} :
      cs[i]? = some c → c.children ≠ [] → r.cons[i]? = some k → (argNames k)[j]? = some x → LastArg (argNames c.rule.ante) j y →
      Edge (.node cat cs form r) ([], x) ([i], y)
  | inside {cat cs form r} {i : Nat} {c : ParseTree Attachment} {p q : List Nat} {x y : String} :
      cs[i]? = some c → c.children ≠ [] → (r.cons[i]?).isSome → Edge c (p, x) (q, y) →
      Edge (.node cat cs form r) (i :: p, x) (i :: q, y)

/-- Connected by the grammar rules of the tree. -/
inductive Linked (t : ParseTree Attachment) : NodeVar → NodeVar → Prop
  | refl (v) : Linked t v v
  | edge {u v} : Edge t u v → Linked t u v
  | symm {u v} : Linked t u v → Linked t v u
  | trans {u v w} : Linked t u v → Linked t v w → Linked t u w

theorem Linked.inside {cat form r} {cs : List (ParseTree Attachment)} {i : Nat} {c : ParseTree Attachment} (hc : cs[i]? = some c)
    (hl : c.children ≠ []) (hk : (r.cons[i]?).isSome) {u v : NodeVar} (h : Linked c u v) :
    Linked (.node cat cs form r) (i :: u.1, u.2) (i :: v.1, v.2) := by
  induction h with
  | refl v => exact .refl _
  | edge e => exact .edge (.inside hc hl hk e)
  | symm _ ih => exact ih.symm
  | trans _ _ ih1 ih2 => exact ih1.trans ih2

/-- What the maps of a composed tree satisfy. -/
structure MapsOk (t : ParseTree Attachment) (inc : List String) (m n : Nat) (maps : List (List Nat × Dict String)) : Prop where
  functional : ∀ p d e, (p, d) ∈ maps → (p, e) ∈ maps → d = e
  source : ∀ p d, (p, d) ∈ maps → ∀ x v, d.get x = some v →
    (∃ j a, LastArg (argNames t.rule.ante) j a ∧ inc[j]? = some v ∧ Linked t ([], a) (p, x)) ∨ Fresh m n v
  apart : ∀ p d q e, (p, d) ∈ maps → (q, e) ∈ maps → ∀ x y v, d.get x = some v → e.get y = some v → Fresh m n v →
    Linked t (p, x) (q, y)
  edges : ∀ p x q y, Edge t (p, x) (q, y) → ∃ d e v, (p, d) ∈ maps ∧ (q, e) ∈ maps ∧ d.get x = some v ∧ e.get y = some v
  root : ∃ d, ([], d) ∈ maps ∧ ∀ j a, LastArg (argNames t.rule.ante) j a → ∃ v, inc[j]? = some v ∧ d.get a = some v

/-- What the maps of composed children satisfy; `i` is the number of the first child. -/
structure KidsOk (cs : List (ParseTree Attachment)) (ks : List Constituent) (d : Dict String) (i m n : Nat)
    (maps : List (List Nat × Dict String)) : Prop where
  shape : ∀ p e, (p, e) ∈ maps → ∃ k p' c a, p = (i + k) :: p' ∧ cs[k]? = some c ∧ c.children ≠ [] ∧ ks[k]? = some a
  functional : ∀ p e e', (p, e) ∈ maps → (p, e') ∈ maps → e = e'
  source : ∀ k p e c a, ((i + k) :: p, e) ∈ maps → cs[k]? = some c → ks[k]? = some a → ∀ x v, e.get x = some v →
    (∃ j y z, LastArg (argNames c.rule.ante) j y ∧ (argNames a)[j]? = some z ∧ d.get z = some v ∧ Linked c ([], y) (p, x)) ∨ Fresh m n v
  apart : ∀ k p e k' q e' c, ((i + k) :: p, e) ∈ maps → ((i + k') :: q, e') ∈ maps → cs[k]? = some c →
    ∀ x y v, e.get x = some v → e'.get y = some v → Fresh m n v → k = k' ∧ Linked c (p, x) (q, y)
  edges : ∀ k c, cs[k]? = some c → c.children ≠ [] → (ks[k]?).isSome → ∀ p x q y, Edge c (p, x) (q, y) →
    ∃ e e' v, ((i + k) :: p, e) ∈ maps ∧ ((i + k) :: q, e') ∈ maps ∧ e.get x = some v ∧ e'.get y = some v
  root : ∀ k c a, cs[k]? = some c → c.children ≠ [] → ks[k]? = some a → ∃ e, ([i + k], e) ∈ maps ∧
    ∀ j y, LastArg (argNames c.rule.ante) j y → ∃ z v, (argNames a)[j]? = some z ∧ d.get z = some v ∧ e.get y = some v

theorem KidsOk.nil_left (ks : List Constituent) (d : Dict String) (i m n : Nat) : KidsOk [] ks d i m n [] := by
  constructor <;> simp

theorem KidsOk.nil_right (cs : List (ParseTree Attachment)) (d : Dict String) (i m n : Nat) : KidsOk cs [] d i m n [] := by
  constructor <;> simp

/-- A leaf before the other children. -/
theorem KidsOk.leaf {c0 : ParseTree Attachment} (h0 : c0.children = []) (k0 : Constituent) {cs : List (ParseTree Attachment)}
    {ks : List Constituent} {d : Dict String} {i m n : Nat} {maps : List (List Nat × Dict String)}
    (h : KidsOk cs ks d (i + 1) m n maps) : KidsOk (c0 :: cs) (k0 :: ks) d i m n maps := by
  have hpos : ∀ k p e, ((i + k) :: p, e) ∈ maps → ∃ k', k = k' + 1 := by
    intro k p e hm
    obtain ⟨k', p', c, a, he, _⟩ := h.shape _ _ hm
    simp only [List.cons.injEq] at he
    exact ⟨k', by omega⟩
  have hshift : ∀ k, i + (k + 1) = i + 1 + k := fun k => by omega
  refine ⟨fun p e hm => ?_, h.functional, fun k p e c a hm hc ha => ?_, fun k p e k' q e' c hm hm' hc => ?_, fun k c hc hl hk => ?_, fun k c a hc hl ha => ?_⟩
  · obtain ⟨k, p', c, a, he, hc, hl, ha⟩ := h.shape p e hm
    exact ⟨k + 1, p', c, a, by rw [he, hshift k], by simpa using hc, hl, by simpa using ha⟩
  · obtain ⟨k', rfl⟩ := hpos k p e hm
    rw [hshift] at hm
    exact h.source k' p e c a hm (by simpa using hc) (by simpa using ha)
  · obtain ⟨k1, rfl⟩ := hpos k p e hm
    obtain ⟨k2, rfl⟩ := hpos k' q e' hm'
    rw [hshift] at hm hm'
    intro x y v hx hy hf
    obtain ⟨h1, h2⟩ := h.apart k1 p e k2 q e' c hm hm' (by simpa using hc) x y v hx hy hf
    exact ⟨by omega, h2⟩
  · cases k with
    | zero => simp only [List.getElem?_cons_zero, Option.some.injEq] at hc; subst hc; exact absurd h0 hl
    | succ k => rw [hshift]; exact h.edges k c (by simpa using hc) hl (by simpa using hk)
  · cases k with
    | zero => simp only [List.getElem?_cons_zero, Option.some.injEq] at hc; subst hc; exact absurd h0 hl
    | succ k => rw [hshift]; exact h.root k c a (by simpa using hc) hl (by simpa using ha)

/-- All names in the map were handed out up to the number. -/
def OldMap (d : Dict String) (m : Nat) : Prop := ∀ x v, d.get x = some v → Fresh 0 m v

/-- A composed child before the other children. -/
theorem KidsOk.cons {c0 : ParseTree Attachment} (h0 : c0.children ≠ []) {k0 : Constituent} {cs : List (ParseTree Attachment)}
    {ks : List Constituent} {d : Dict String} {i m l n : Nat} {maps0 maps : List (List Nat × Dict String)} {inc : List String}
    (hd : OldMap d m) (hinc : mapAll d (argNames k0) = .ok inc) (hc0 : MapsOk c0 inc m l maps0) (hml : m ≤ l) (hln : l ≤ n)
    (h : KidsOk cs ks d (i + 1) l n maps) :
    KidsOk (c0 :: cs) (k0 :: ks) d i m n (maps0.map (fun e => (i :: e.1, e.2)) ++ maps) := by
  have hshift : ∀ k, i + (k + 1) = i + 1 + k := fun k => by omega
  have hlook := mapAll_get hinc
  -- entries with number i come from the first child, the others from the rest
  have hzero : ∀ p e, (i :: p, e) ∈ maps0.map (fun e => (i :: e.1, e.2)) ++ maps → (p, e) ∈ maps0 := by
    intro p e hm
    simp only [List.mem_append, List.mem_map, Prod.mk.injEq, List.cons.injEq, true_and] at hm
    rcases hm with ⟨⟨p', e'⟩, hm, rfl, rfl⟩ | hm
    · exact hm
    · obtain ⟨k', p', c, a, he, _⟩ := h.shape _ _ hm
      simp only [List.cons.injEq] at he
      omega
  have hsucc : ∀ k p e, ((i + (k + 1)) :: p, e) ∈ maps0.map (fun e => (i :: e.1, e.2)) ++ maps → ((i + 1 + k) :: p, e) ∈ maps := by
    intro k p e hm
    simp only [List.mem_append, List.mem_map, Prod.mk.injEq, List.cons.injEq] at hm
    rcases hm with ⟨⟨p', e'⟩, _, ⟨h1, _⟩, _⟩ | hm
    · omega
    · rwa [hshift] at hm
  have hmem0 : ∀ p e, (p, e) ∈ maps0 → (i :: p, e) ∈ maps0.map (fun e => (i :: e.1, e.2)) ++ maps := by
    intro p e hm
    simp only [List.mem_append, List.mem_map]
    exact .inl ⟨(p, e), hm, rfl⟩
  have hmemS : ∀ p e, (p, e) ∈ maps → (p, e) ∈ maps0.map (fun e => (i :: e.1, e.2)) ++ maps :=
    fun p e hm => List.mem_append_right _ hm
  have hsource : ∀ k p e c a, ((i + k) :: p, e) ∈ maps0.map (fun e => (i :: e.1, e.2)) ++ maps → (c0 :: cs)[k]? = some c →
      (k0 :: ks)[k]? = some a → ∀ x v, e.get x = some v →
      (∃ j y z, LastArg (argNames c.rule.ante) j y ∧ (argNames a)[j]? = some z ∧ d.get z = some v ∧ Linked c ([], y) (p, x)) ∨
      (k = 0 ∧ Fresh m l v) ∨ (k ≠ 0 ∧ Fresh l n v) := by
    intro k p e c a hm hc ha x v hx
    cases k with
    | zero =>
      simp only [List.getElem?_cons_zero, Option.some.injEq] at hc ha
      subst hc; subst ha
      rcases hc0.source p e (hzero p e hm) x v hx with ⟨j, y, h1, h2, h3⟩ | hf
      · have hlt : j < (argNames k0).length := by
          rw [← hlook.1]
          exact (List.getElem?_eq_some_iff.1 h2).1
        obtain ⟨u, hu1, hu2⟩ := hlook.2 j _ (List.getElem?_eq_getElem hlt)
        rw [h2] at hu2
        cases hu2
        exact .inl ⟨j, y, _, h1, List.getElem?_eq_getElem hlt, hu1, h3⟩
      · exact .inr (.inl ⟨rfl, hf⟩)
    | succ k =>
      rcases h.source k p e c a (hsucc k p e hm) (by simpa using hc) (by simpa using ha) x v hx with h' | hf
      · exact .inl h'
      · exact .inr (.inr ⟨by omega, hf⟩)
  have hshape : ∀ p e, (p, e) ∈ maps0.map (fun e => (i :: e.1, e.2)) ++ maps →
      ∃ k p' c a, p = (i + k) :: p' ∧ (c0 :: cs)[k]? = some c ∧ c.children ≠ [] ∧ (k0 :: ks)[k]? = some a := by
    intro p e hm
    simp only [List.mem_append, List.mem_map, Prod.mk.injEq] at hm
    rcases hm with ⟨⟨p', e'⟩, hm, rfl, rfl⟩ | hm
    · exact ⟨0, p', c0, k0, by simp, by simp, h0, by simp⟩
    · obtain ⟨k, p', c, a, he, hc, hl, ha⟩ := h.shape p e hm
      exact ⟨k + 1, p', c, a, by rw [he, hshift k], by simpa using hc, hl, by simpa using ha⟩
  refine ⟨hshape, fun p e e' hm hm' => ?_, fun k p e c a hm hc ha x v hx => ?_, fun k p e k' q e' c hm hm' hc x y v hx hy hf => ?_,
    fun k c hc hl hk p x q y he => ?_, fun k c a hc hl ha => ?_⟩
  · obtain ⟨k, p', c, a, rfl, _⟩ := hshape p e hm
    cases k with
    | zero => exact hc0.functional p' e e' (hzero p' e hm) (hzero p' e' hm')
    | succ k => exact h.functional _ e e' (hsucc k p' e hm) (hsucc k p' e' hm')
  · rcases hsource k p e c a hm hc ha x v hx with h' | ⟨_, hf⟩ | ⟨_, hf⟩
    · exact .inl h'
    · exact .inr (hf.mono (Nat.le_refl _) hln)
    · exact .inr (hf.mono hml (Nat.le_refl _))
  · -- a fresh name belongs to the first child or to the rest
    have hcls : ∀ k p e x, ((i + k) :: p, e) ∈ maps0.map (fun e => (i :: e.1, e.2)) ++ maps → e.get x = some v →
        (k = 0 ∧ Fresh m l v) ∨ (k ≠ 0 ∧ Fresh l n v) := by
      intro k p e x hm hx
      obtain ⟨k1, p1, c1, a1, he1, hc1, _, ha1⟩ := hshape _ e hm
      simp only [List.cons.injEq] at he1
      obtain ⟨hk, rfl⟩ := he1
      obtain rfl : k = k1 := by omega
      rcases hsource k p e c1 a1 hm hc1 ha1 x v hx with ⟨j, y, z, _, _, hz, _⟩ | h' | h'
      · exact (Fresh.disjoint (hd z v hz) hf (Nat.le_refl _)).elim
      · exact .inl h'
      · exact .inr h'
    rcases hcls k p e x hm hx with ⟨rfl, f1⟩ | ⟨hk, f1⟩
    · rcases hcls k' q e' y hm' hy with ⟨rfl, f2⟩ | ⟨hk', f2⟩
      · simp only [List.getElem?_cons_zero, Option.some.injEq] at hc
        subst hc
        exact ⟨rfl, hc0.apart p e q e' (hzero p e hm) (hzero q e' hm') x y v hx hy f1⟩
      · exact (f1.disjoint f2 (Nat.le_refl _)).elim
    · rcases hcls k' q e' y hm' hy with ⟨rfl, f2⟩ | ⟨hk', f2⟩
      · exact (f2.disjoint f1 (Nat.le_refl _)).elim
      · obtain ⟨k1, rfl⟩ := Nat.exists_eq_succ_of_ne_zero hk
        obtain ⟨k2, rfl⟩ := Nat.exists_eq_succ_of_ne_zero hk'
        obtain ⟨h1, h2⟩ := h.apart k1 p e k2 q e' c (hsucc k1 p e hm) (hsucc k2 q e' hm') (by simpa using hc) x y v hx hy f1
        exact ⟨by rw [h1], h2⟩
  · cases k with
    | zero =>
      simp only [List.getElem?_cons_zero, Option.some.injEq] at hc
      subst hc
      obtain ⟨e, e', v, h1, h2, h3, h4⟩ := hc0.edges p x q y he
      exact ⟨e, e', v, hmem0 _ _ h1, hmem0 _ _ h2, h3, h4⟩
    | succ k =>
      obtain ⟨e, e', v, h1, h2, h3, h4⟩ := h.edges k c (by simpa using hc) hl (by simpa using hk) p x q y he
      rw [hshift]
      exact ⟨e, e', v, hmemS _ _ h1, hmemS _ _ h2, h3, h4⟩
  · cases k with
    | zero =>
      simp only [List.getElem?_cons_zero, Option.some.injEq] at hc ha
      subst hc; subst ha
      obtain ⟨e, h1, h2⟩ := hc0.root
      refine ⟨e, hmem0 _ _ h1, fun j y hj => ?_⟩
      obtain ⟨v, hv, hy⟩ := h2 j y hj
      have hlt : j < (argNames k0).length := by
        rw [← hlook.1]
        exact (List.getElem?_eq_some_iff.1 hv).1
      obtain ⟨u, hu1, hu2⟩ := hlook.2 j _ (List.getElem?_eq_getElem hlt)
      rw [hv] at hu2
      cases hu2
      exact ⟨_, v, List.getElem?_eq_getElem hlt, hu1, hy⟩
    | succ k =>
      obtain ⟨e, h1, h2⟩ := h.root k c a (by simpa using hc) hl (by simpa using ha)
      rw [hshift]
      exact ⟨e, hmemS _ _ h1, h2⟩

/-- The maps of the children do not depend on the accumulator. -/
theorem kids_node {cat form : Str} {cs : List (ParseTree Attachment)} {r : GRule Attachment} {inc : List String} {d d' : Dict String}
    {g g1 g2 g3 : Gen} {maps : List (List Nat × Dict String)} {s : Value}
    (hold : ∀ (j : Nat) v, inc[j]? = some v → Fresh 0 g.number v)
    (hmap : createMap r inc g = .ok g1 d) (hk : KidsOk cs r.cons d 0 g1.number g2.number maps) (hle : g1.number ≤ g2.number)
    (hext : extendMap d s g2 = .ok g3 d') :
    MapsOk (.node cat cs form r) inc g.number g3.number (([], d') :: maps) := by
  obtain ⟨m1, m2, m3, m4⟩ := createMap_spec hmap
  obtain ⟨x1, _, _⟩ := extendMap_grows hext
  have hg1 := (advances_createMap r inc).le hmap
  have hg3 := (advances_extendMap d s).le hext
  have hold' : ∀ (j : Nat) v, inc[j]? = some v → Fresh g.number g3.number v → False := fun j v hj hf =>
    Fresh.disjoint (hold j v hj) hf (Nat.le_refl _)
  -- where the values of the root map come from
  have hroot : ∀ x v, d'.get x = some v →
      (∃ j, LastArg (argNames r.ante) j x ∧ inc[j]? = some v) ∨
      (x ∉ argNames r.ante ∧ d.get x = some v ∧ Fresh g.number g1.number v) ∨ (d.get x = none ∧ Fresh g2.number g3.number v) := by
    intro x v hx
    rcases x1.fresh x v hx with h | ⟨h, hf⟩
    · by_cases ha : x ∈ argNames r.ante
      · obtain ⟨j, hj⟩ := LastArg.exists ha
        obtain ⟨u, hu1, hu2⟩ := m1 x j hj
        rw [h] at hu2
        cases hu2
        exact .inl ⟨j, hj, hu1⟩
      · exact .inr (.inl ⟨ha, h, (m2 x v h ha).1⟩)
    · exact .inr (.inr ⟨h, hf⟩)
  have hmem : ∀ p e, (p, e) ∈ ([], d') :: maps → (p = [] ∧ e = d') ∨ (p, e) ∈ maps := by
    intro p e h
    simpa [Prod.mk.injEq] using h
  have hnil : ∀ e, ([], e) ∉ maps := by
    intro e h
    obtain ⟨k, p', c, a, he, _⟩ := hk.shape _ _ h
    simp at he
  have hnil' : ∀ e, ([], e) ∈ ([], d') :: maps → e = d' := by
    intro e h
    rcases hmem _ _ h with ⟨_, h⟩ | h
    · exact h
    · exact absurd h (hnil e)
  -- a variable of a child whose value is in the map of this node is linked to a variable of this node with that value
  have hkid : ∀ p e, (p, e) ∈ maps → ∀ x v, e.get x = some v →
      (∃ z, d.get z = some v ∧ Linked (.node cat cs form r) ([], z) (p, x)) ∨
      (Fresh g1.number g2.number v ∧ ∀ q e', (q, e') ∈ maps → ∀ y, e'.get y = some v → Linked (.node cat cs form r) (p, x) (q, y)) := by
    intro p e hm x v hx
    obtain ⟨k, p', c, a, rfl, hc, hl, ha⟩ := hk.shape p e hm
    rcases hk.source k p' e c a hm hc ha x v hx with ⟨j, y, z, h1, h2, h3, h4⟩ | hf
    · refine .inl ⟨z, h3, ?_⟩
      rw [Nat.zero_add]
      exact (Linked.edge (.here hc hl ha h2 h1)).trans (Linked.inside hc hl (by simp [ha]) h4)
    · refine .inr ⟨hf, fun q e' hm' y hy => ?_⟩
      obtain ⟨k', q', c', a', rfl, _⟩ := hk.shape q e' hm'
      obtain ⟨rfl, h⟩ := hk.apart k p' e k' q' e' c hm hm' hc x y v hx hy hf
      rw [Nat.zero_add]
      exact Linked.inside hc hl (by simp [ha]) h
  refine ⟨fun p e e' hm hm' => ?_, fun p e hm x v hx => ?_, fun p e q e' hm hm' x y v hx hy hf => ?_, fun p x q y he => ?_,
    ⟨d', by simp, fun j a hj => ?_⟩⟩
  · rcases hmem _ _ hm with ⟨rfl, rfl⟩ | hm
    · exact (hnil' e' hm').symm
    · rcases hmem _ _ hm' with ⟨h1, _⟩ | hm2
      · exact absurd (h1 ▸ hm) (hnil e)
      · exact hk.functional p e e' hm hm2
  · have hd : ∀ z, d.get z = some v → (∃ j a, LastArg (argNames r.ante) j a ∧ inc[j]? = some v ∧
        Linked (.node cat cs form r) ([], a) ([], z)) ∨ Fresh g.number g3.number v := by
      intro z hz
      rcases hroot z v (x1.keep z v hz) with ⟨j, h1, h2⟩ | ⟨_, _, hf⟩ | ⟨h, _⟩
      · exact .inl ⟨j, z, h1, h2, .refl _⟩
      · exact .inr (hf.mono (Nat.le_refl _) (by omega))
      · rw [hz] at h; simp at h
    rcases hmem _ _ hm with ⟨rfl, rfl⟩ | hm
    · rcases hroot x v hx with ⟨j, h1, h2⟩ | ⟨_, _, hf⟩ | ⟨_, hf⟩
      · exact .inl ⟨j, x, h1, h2, .refl _⟩
      · exact .inr (hf.mono (Nat.le_refl _) (by omega))
      · exact .inr (hf.mono (by omega) (Nat.le_refl _))
    · rcases hkid p e hm x v hx with ⟨z, hz, hl⟩ | ⟨hf, _⟩
      · rcases hd z hz with ⟨j, a, h1, h2, h3⟩ | hf
        · exact .inl ⟨j, a, h1, h2, h3.trans hl⟩
        · exact .inr hf
      · exact .inr (hf.mono (by omega) (by omega))
  · -- two variables with the same fresh name
    have hdd : ∀ a b, d.get a = some v → d.get b = some v → a = b := by
      intro a b ha hb
      have hn : ∀ z, d.get z = some v → z ∉ argNames r.ante := by
        intro z hz hmz
        obtain ⟨j, hj⟩ := LastArg.exists hmz
        obtain ⟨u, hu1, hu2⟩ := m1 z j hj
        rw [hz] at hu2
        cases hu2
        exact hold' j v hu1 hf
      exact m3 a b v ha hb (hn a ha) (hn b hb)
    have hdf : ∀ z, d.get z = some v → Fresh g.number g1.number v := by
      intro z hz
      rcases hroot z v (x1.keep z v hz) with ⟨j, _, h2⟩ | ⟨_, _, hf'⟩ | ⟨h, _⟩
      · exact (hold' j v h2 hf).elim
      · exact hf'
      · rw [hz] at h; simp at h
    -- the variable is linked to a variable of this node from the first map, or is new in the children, or new in the semantics
    have hcls : ∀ p e, (p, e) ∈ ([], d') :: maps → ∀ x, e.get x = some v →
        (∃ z, d.get z = some v ∧ Linked (.node cat cs form r) ([], z) (p, x)) ∨
        (Fresh g1.number g2.number v ∧ (p, e) ∈ maps) ∨ (Fresh g2.number g3.number v ∧ p = [] ∧ e = d' ∧ d.get x = none) := by
      intro p e hm x hx
      rcases hmem _ _ hm with ⟨rfl, rfl⟩ | hm
      · rcases hroot x v hx with ⟨j, _, h2⟩ | ⟨_, h, _⟩ | ⟨h, hf'⟩
        · exact (hold' j v h2 hf).elim
        · exact .inl ⟨x, h, .refl _⟩
        · exact .inr (.inr ⟨hf', rfl, rfl, h⟩)
      · rcases hkid p e hm x v hx with h | ⟨hf', _⟩
        · exact .inl h
        · exact .inr (.inl ⟨hf', hm⟩)
    rcases hcls p e hm x hx with ⟨z, hz, hl⟩ | ⟨f1, hm1⟩ | ⟨f1, rfl, rfl, hd1⟩
    · rcases hcls q e' hm' y hy with ⟨z', hz', hl'⟩ | ⟨f2, _⟩ | ⟨f2, _⟩
      · rw [hdd z' z hz' hz] at hl'
        exact hl.symm.trans hl'
      · exact ((hdf z hz).disjoint f2 (Nat.le_refl _)).elim
      · exact ((hdf z hz).disjoint f2 hle).elim
    · rcases hcls q e' hm' y hy with ⟨z', hz', _⟩ | ⟨f2, hm2⟩ | ⟨f2, _⟩
      · exact ((hdf z' hz').disjoint f1 (Nat.le_refl _)).elim
      · rcases hkid p e hm1 x v hx with ⟨z, hz, _⟩ | ⟨_, h⟩
        · exact ((hdf z hz).disjoint f1 (Nat.le_refl _)).elim
        · exact h q e' hm2 y hy
      · exact (f1.disjoint f2 (Nat.le_refl _)).elim
    · rcases hcls q e' hm' y hy with ⟨z', hz', _⟩ | ⟨f2, _⟩ | ⟨_, rfl, rfl, hd2⟩
      · exact ((hdf z' hz').disjoint f1 hle).elim
      · exact (f2.disjoint f1 (Nat.le_refl _)).elim
      · rw [x1.inj x y v hx hy hd1 hd2]
        exact .refl _
  · generalize hu : (p, x) = u at he
    generalize hw : (q, y) = w at he
    cases he with
    | here hc hl ha hx hy =>
      cases hu; cases hw
      rename_i i j k c
      obtain ⟨e, h1, h2⟩ := hk.root i c k hc hl ha
      obtain ⟨z, v, h3, h4, h5⟩ := h2 j y hy
      rw [hx] at h3
      cases h3
      rw [Nat.zero_add] at h1
      exact ⟨d', e, v, by simp, List.mem_cons_of_mem _ h1, x1.keep _ _ h4, h5⟩
    | inside hc hl ha he =>
      cases hu; cases hw
      rename_i i c p q
      obtain ⟨e, e', v, h1, h2, h3, h4⟩ := hk.edges i c hc hl ha p x q y he
      rw [Nat.zero_add] at h1 h2
      exact ⟨e, e', v, List.mem_cons_of_mem _ h1, List.mem_cons_of_mem _ h2, h3, h4⟩
  · obtain ⟨v, h1, h2⟩ := m1 a j hj
    exact ⟨v, h1, x1.keep _ _ h2⟩

mutual
theorem compose_maps : ∀ (t : ParseTree Attachment) (inc : List String) (g g' : Gen) (c : Composed),
    (∀ (j : Nat) v, inc[j]? = some v → Fresh 0 g.number v) → compose t inc g = .ok g' c → MapsOk t inc g.number g'.number c.maps
  | .node cat cs form r, inc, g, g', c, hold, h => by
    unfold compose at h
    rw [M.bind_eq_ok] at h
    obtain ⟨g1, d, hd, h⟩ := h
    rw [M.bind_eq_ok] at h
    obtain ⟨g2, parts, hp, h⟩ := h
    have hg1 := (advances_createMap _ _).le hd
    have hg2 := (advances_composeChildren _ _ _ _ _).le hp
    obtain ⟨m1, m2, _, _⟩ := createMap_spec hd
    have hdold : OldMap d g1.number := by
      intro x v hx
      by_cases ha : x ∈ argNames r.ante
      · obtain ⟨j, hj⟩ := LastArg.exists ha
        obtain ⟨u, hu1, hu2⟩ := m1 x j hj
        rw [hx] at hu2
        cases hu2
        exact (hold j v hu1).mono (Nat.le_refl _) hg1
      · exact (m2 x v hx ha).1.mono (Nat.zero_le _) (Nat.le_refl _)
    obtain ⟨maps, hmaps, hk⟩ := composeChildren_maps cs r.cons d 0 ⟨[], [], [], []⟩ g1 g2 parts hdold hp
    cases hsem : semOf r.sem with
    | none => simp [hsem] at h
    | some f =>
      simp only [hsem, M.bind_eq_ok, M.lift_eq_ok, M.pure_eq_ok] at h
      obtain ⟨_, s, ⟨rfl, _⟩, _, ex, ⟨rfl, _⟩, _, dg, ⟨rfl, _⟩, g3, d', hx, rfl, rfl⟩ := h
      simp only [List.nil_append] at hmaps
      simp only [hmaps]
      exact kids_node hold hd hk hg2 hx
theorem composeChildren_maps : ∀ (cs : List (ParseTree Attachment)) (ks : List Constituent) (d : Dict String) (i : Nat)
    (acc : ChildParts) (g g' : Gen) (parts : ChildParts), OldMap d g.number → composeChildren cs ks d i acc g = .ok g' parts →
    ∃ maps, parts.maps = acc.maps ++ maps ∧ KidsOk cs ks d i g.number g'.number maps
  | [], ks, d, i, acc, g, g', parts, _, h => by
    unfold composeChildren at h
    simp only [M.pure_eq_ok] at h
    obtain ⟨rfl, rfl⟩ := h
    exact ⟨[], by simp, KidsOk.nil_left _ _ _ _ _⟩
  | _ :: _, [], d, i, acc, g, g', parts, _, h => by
    unfold composeChildren at h
    simp only [M.pure_eq_ok] at h
    obtain ⟨rfl, rfl⟩ := h
    exact ⟨[], by simp, KidsOk.nil_right _ _ _ _ _⟩
  | .node cat cs form r :: rest, k :: ks, d, i, acc, g, g', parts, hd, h => by
    unfold composeChildren at h
    split at h
    · rename_i hcs
      have hl : (ParseTree.node cat cs form r).children = [] := by simpa [ParseTree.children] using hcs
      cases hsem : semOf r.sem with
      | none =>
        simp only [hsem] at h
        obtain ⟨maps, h1, h2⟩ := composeChildren_maps rest ks d (i + 1) acc g g' parts hd h
        exact ⟨maps, h1, KidsOk.leaf hl k h2⟩
      | some f =>
        simp only [hsem, M.bind_eq_ok, M.lift_eq_ok] at h
        obtain ⟨_, s, ⟨rfl, _⟩, h⟩ := h
        obtain ⟨maps, h1, h2⟩ := composeChildren_maps rest ks d (i + 1) _ g g' parts hd h
        exact ⟨maps, h1, KidsOk.leaf hl k h2⟩
    · rename_i hcs
      have hl : (ParseTree.node cat cs form r).children ≠ [] := by simpa [ParseTree.children] using hcs
      simp only [M.bind_eq_ok, M.lift_eq_ok] at h
      obtain ⟨_, inc, ⟨rfl, hinc⟩, g1, c, hc, h⟩ := h
      have hlook := mapAll_get hinc
      have hm := compose_maps (.node cat cs form r) inc g g1 c (fun j v hj => by
        have hlt : j < (argNames k).length := by
          rw [← hlook.1]
          exact (List.getElem?_eq_some_iff.1 hj).1
        obtain ⟨u, hu1, hu2⟩ := hlook.2 j _ (List.getElem?_eq_getElem hlt)
        rw [hj] at hu2
        cases hu2
        exact hd _ _ hu1) hc
      have hg1 := (advances_compose _ _).le hc
      have hg2 := (advances_composeChildren _ _ _ _ _).le h
      obtain ⟨maps, h1, h2⟩ := composeChildren_maps rest ks d (i + 1) _ g1 g' parts (fun x v hx => (hd x v hx).mono (Nat.le_refl _) hg1) h
      refine ⟨c.maps.map (fun m => (i :: m.1, m.2)) ++ maps, ?_, KidsOk.cons hl hd hinc hm hg1 hg2 h2⟩
      rw [h1, List.append_assoc]
end

end Verif
