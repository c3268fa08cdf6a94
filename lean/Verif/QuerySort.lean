import Verif.QueryOrderLemmas

/-!
# Moving facts to the front keeps the meaning
-/

namespace Verif

mutual
/-- The second query has the early parts of the first in some order, and then the others in their order; the queries in these are changed in
the same way. -/
inductive Adv (early : Form → Bool) : List Form → List Form → Prop
  | mk {q e late l q' : List Form} : e.Perm (q.filter early) → late = (q.filter fun f => !early f) → AdvAll early late l → q' = e ++ l →
      Adv early q q'
/-- Each part is changed inside. -/
inductive AdvAll (early : Form → Bool) : List Form → List Form → Prop
  | nil : AdvAll early [] []
  | cons {f g fs gs} : AdvForm early f g → AdvAll early fs gs → AdvAll early (f :: fs) (g :: gs)
/-- The queries in a part are changed. -/
inductive AdvForm (early : Form → Bool) : Form → Form → Prop
  | same (f) : AdvForm early f f
  | neg {q q'} : Adv early q q' → AdvForm early (.neg q) (.neg q')
  | thereIsNo {q q'} : Adv early q q' → AdvForm early (.thereIsNo q) (.thereIsNo q')
  | thereIs {q q'} : Adv early q q' → AdvForm early (.thereIs q) (.thereIs q')
  | exactly {q q' n} : Adv early q q' → AdvForm early (.exactly q n) (.exactly q' n)
  | moreThan {q q' n} : Adv early q q' → AdvForm early (.moreThan q n) (.moreThan q' n)
  | fewerThan {q q' n} : Adv early q q' → AdvForm early (.fewerThan q n) (.fewerThan q' n)
  | all {x r r' q q'} : Adv early r r' → Adv early q q' → AdvForm early (.all x r q) (.all x r' q')
  | count {x q q'} : Adv early q q' → AdvForm early (.count x q) (.count x q')
end

section
variable {early : Form → Bool}

theorem AdvAll.refl (q : List Form) : AdvAll early q q := by
  induction q with
  | nil => exact .nil
  | cons f fs ih => exact .cons (.same f) ih

theorem AdvAll.append {a b c d : List Form} (h : AdvAll early a b) (h' : AdvAll early c d) : AdvAll early (a ++ c) (b ++ d) := by
  induction a generalizing b with
  | nil => cases h; exact h'
  | cons f fs ih =>
    cases h with
    | cons h1 h2 => exact .cons h1 (ih h2)

theorem AdvAll.split {l l1 l2 : List Form} {g : Form} (h : AdvAll early l (l1 ++ g :: l2)) :
    ∃ m1 f m2, l = m1 ++ f :: m2 ∧ AdvAll early m1 l1 ∧ AdvForm early f g ∧ AdvAll early m2 l2 := by
  induction l1 generalizing l with
  | nil =>
    cases h with
    | cons h1 h2 => exact ⟨[], _, _, rfl, .nil, h1, h2⟩
  | cons g' l1 ih =>
    cases h with
    | cons h1 h2 =>
      obtain ⟨m1, f, m2, rfl, h3, h4, h5⟩ := ih h2
      exact ⟨_ :: m1, f, m2, rfl, .cons h1 h3, h4, h5⟩

theorem AdvForm.binds {f g : Form} (h : AdvForm early f g) : f.binds = g.binds := by
  cases h <;> simp [Form.binds]

theorem AdvForm.isFact {f g : Form} (h : AdvForm early f g) : f.isFact = g.isFact := by
  cases h <;> simp [Form.isFact]

theorem AdvForm.isEither {f g : Form} (h : AdvForm early f g) : f.isEither = g.isEither := by
  cases h <;> simp [Form.isEither]

theorem AdvAll.binds {q q' : List Form} (h : AdvAll early q q') : formBinds q = formBinds q' := by
  induction q generalizing q' with
  | nil => cases h; rfl
  | cons f fs ih =>
    cases h with
    | cons h1 h2 => rw [formBinds, formBinds, h1.binds, ih h2]

theorem filter_split_perm (q : List Form) (p : Form → Bool) : q.Perm (q.filter p ++ q.filter fun f => !p f) := by
  induction q with
  | nil => exact .refl _
  | cons f fs ih =>
    cases hf : p f with
    | true => simpa [hf] using ih
    | false =>
      simp only [List.filter_cons, hf, Bool.not_false, if_true, Bool.false_eq_true, if_false]
      exact (ih.cons f).trans List.perm_middle.symm

theorem adv_perm {q e : List Form} (h : e.Perm (q.filter early)) : q.Perm (e ++ q.filter fun f => !early f) :=
  (filter_split_perm q early).trans (h.symm.append_right _)

theorem Adv.binds {q q' : List Form} (h : Adv early q q') (x : String) : x ∈ formBinds q ↔ x ∈ formBinds q' := by
  cases h with
  | mk h1 hl h2 hq =>
    subst hl hq
    rw [formBinds_perm (adv_perm h1), formBinds_append, formBinds_append, h2.binds]

mutual
theorem Adv.vars {early : Form → Bool} {q q' : List Form} : Adv early q q' → ∀ x, x ∈ formVars q ↔ x ∈ formVars q'
  | .mk h1 hl h2 hq => by
    have ih := h2.vars
    intro x
    rw [hl] at ih
    rw [hq, formVars_perm (adv_perm h1), formVars_append, formVars_append, List.mem_append, List.mem_append, ih]
theorem AdvAll.vars {early : Form → Bool} {q q' : List Form} : AdvAll early q q' → ∀ x, x ∈ formVars q ↔ x ∈ formVars q'
  | .nil => fun _ => Iff.rfl
  | .cons h1 h2 => by
    have i1 := h1.vars
    have i2 := h2.vars
    intro x
    rw [formVars, formVars, List.mem_append, List.mem_append, i1, i2]
theorem AdvForm.vars {early : Form → Bool} {f g : Form} : AdvForm early f g → ∀ x, x ∈ f.vars ↔ x ∈ g.vars
  | .same _ => fun _ => Iff.rfl
  | .neg h => by have i := h.vars; simpa only [Form.vars] using i
  | .thereIsNo h => by have i := h.vars; simpa only [Form.vars] using i
  | .thereIs h => by have i := h.vars; simpa only [Form.vars] using i
  | .exactly h => by have i := h.vars; intro x; simp only [Form.vars, List.mem_append]; rw [i]
  | .moreThan h => by have i := h.vars; intro x; simp only [Form.vars, List.mem_append]; rw [i]
  | .fewerThan h => by have i := h.vars; intro x; simp only [Form.vars, List.mem_append]; rw [i]
  | .all h h' => by have i := h.vars; have i' := h'.vars; intro x; simp only [Form.vars, List.mem_cons, List.mem_append]; rw [i, i']
  | .count h => by have i := h.vars; intro x; simp only [Form.vars, List.mem_cons]; rw [i]
end

/-- Changes inside the parts keep a query ordered. -/
theorem AdvAll.ordered {q q' : List Form} (h : AdvAll early q q') {B : String → Prop} (ho : Ordered q B) : Ordered q' B := by
  intro l1 g l2 e hg x hx
  subst e
  obtain ⟨m1, f, m2, rfl, h1, h2, h3⟩ := h.split
  obtain ⟨a1, a2⟩ := ho m1 f m2 rfl (h2.isFact.trans hg) x ((h2.vars x).2 hx)
  rw [← h1.binds, ← h2.binds, ← h3.binds, ← h2.isEither, formBinds_append, ← h1.binds, ← h3.binds, ← formBinds_append]
  exact ⟨fun h' => a1 ((h1.append h3).vars x |>.2 h'), a2⟩

/-- Early parts are facts or alternatives. -/
def EarlyOk (early : Form → Bool) : Prop := ∀ f, early f = true → f.isFact = true ∨ f.isEither = true

/-- Moving the early parts to the front keeps a query ordered. -/
theorem ordered_front (he : EarlyOk early) {q e : List Form} (h : e.Perm (q.filter early)) {B : String → Prop} (ho : Ordered q B) :
    Ordered (e ++ q.filter fun f => !early f) B := by
  intro l1 f l2 hs hf x hx
  have hperm := adv_perm (early := early) h
  obtain ⟨m1, m2, hm⟩ := List.append_of_mem (hperm.symm.mem_iff.1 (show f ∈ e ++ q.filter fun f => !early f by rw [hs]; simp))
  have hrest : ∀ {m1 m2}, q = m1 ++ f :: m2 → (m1 ++ m2).Perm (l1 ++ l2) := by
    intro m1 m2 hm
    have h1 : (f :: (m1 ++ m2)).Perm (f :: (l1 ++ l2)) := List.perm_middle.symm.trans ((hm ▸ (hs ▸ hperm)).trans List.perm_middle)
    exact List.Perm.cons_inv h1
  have heither : f.isEither = true → x ∈ formBinds (l1 ++ l2) → B x := fun h1 h2 =>
    (ho m1 f m2 hm hf x hx).2 h1 ((formBinds_perm (hrest hm) x).2 h2)
  refine ⟨fun hv => ?_, heither⟩
  cases hef : early f with
  | true =>
    have hei : f.isEither = true := by
      rcases he f hef with h' | h'
      · rw [hf] at h'; cases h'
      · exact h'
    rcases (ho m1 f m2 hm hf x hx).1 ((formVars_perm (hrest hm) x).2 hv) with h1 | h1 | ⟨h1, h2⟩
    · exact .inl h1
    · exact .inl ((ho m1 f m2 hm hf x hx).2 hei (by rw [formBinds_append]; simp [h1]))
    · by_cases hB : x ∈ formBinds l2
      · exact .inl (heither hei (by rw [formBinds_append]; simp [hB]))
      · exact .inr (.inr ⟨h1, hB⟩)
  | false =>
    -- the part is one of the late ones
    have hfe : f ∉ e := fun h' => by
      have := (List.mem_filter.1 (h.mem_iff.1 h')).2
      rw [hef] at this; cases this
    obtain ⟨k1, rfl, hk⟩ : ∃ k1, l1 = e ++ k1 ∧ (q.filter fun f => !early f) = k1 ++ f :: l2 := by
      rcases List.append_eq_append_iff.1 hs with ⟨a, h1, h2⟩ | ⟨c, h1, h2⟩
      · exact ⟨a, h1, h2⟩
      · cases c with
        | nil => exact ⟨[], by simpa using h1.symm, by simpa using h2.symm⟩
        | cons c cs =>
          simp only [List.cons_append, List.cons.injEq] at h2
          exact absurd (by rw [h1, h2.1]; simp) hfe
    obtain ⟨n1, n2', rfl, hn1, hn2⟩ := List.filter_eq_append_iff.1 hk
    obtain ⟨n2, n3, rfl, hn3, hn4, hn5⟩ := List.filter_eq_cons_iff.1 hn2
    have hq : n1 ++ (n2 ++ f :: n3) = (n1 ++ n2) ++ f :: n3 := by simp
    rcases (ho (n1 ++ n2) f n3 hq hf x hx).1 ((formVars_perm (hrest hq) x).2 hv) with h1 | h1 | ⟨h1, h2⟩
    · exact .inl h1
    · right; left
      obtain ⟨g, hg, hxg⟩ := mem_formBinds.1 h1
      refine mem_formBinds.2 ⟨g, ?_, hxg⟩
      rw [List.mem_append]
      cases hge : early g with
      | true => exact .inl (h.symm.mem_iff.1 (List.mem_filter.2 ⟨by rw [hq]; exact List.mem_append.2 (.inl hg), hge⟩))
      | false =>
        right
        rcases List.mem_append.1 hg with hg | hg
        · rw [← hn1]; exact List.mem_filter.2 ⟨hg, by simp [hge]⟩
        · exact absurd (hn3 g hg) (by simp [hge])
    · right; right
      refine ⟨h1, fun h' => h2 ?_⟩
      obtain ⟨g, hg, hxg⟩ := mem_formBinds.1 h'
      rw [← hn5] at hg
      exact mem_formBinds.2 ⟨g, (List.mem_filter.1 hg).1, hxg⟩

theorem each_append {R : Form → (String → Prop) → Prop} (q q' : List Form) (B : String → Prop) :
    Each R (q ++ q') B ↔ Each R q B ∧ Each R q' (Known.more B (formBinds q)) := by
  induction q generalizing B with
  | nil => simp [Each, formBinds, more_nil]
  | cons f fs ih => rw [List.cons_append, Each, Each, ih, formBinds, more_more, and_assoc]

/-- What a change keeps. -/
structure Keeps (P : Program) (ar : String → Option Nat) (q q' : List Form) (B : String → Prop) : Prop where
  tidy : FormsTidy q' B
  ok : FormsOk ar q B → FormsOk ar q' B
  sat : ∀ σ : Assignment, (∀ x, Plain (σ x)) → (SatAll P q B σ ↔ SatAll P q' B σ)

theorem Keeps.exists {P : Program} {ar : String → Option Nat} {q q' : List Form} {B : String → Prop} (h : Keeps P ar q q' B) (σ : Assignment) :
    (∃ τ, AgreeOn B σ τ ∧ SatAll P q B τ) ↔ ∃ τ, AgreeOn B σ τ ∧ SatAll P q' B τ :=
  exists_congr fun τ => and_congr_right fun h' => h.sat τ h'.1

theorem Keeps.count {P : Program} {ar : String → Option Nat} {q q' : List Form} {B : String → Prop} (h : Keeps P ar q q' B)
    (hb : ∀ x, x ∈ formBinds q ↔ x ∈ formBinds q') (σ : Assignment) (k : Nat) :
    HasCount (Known.more B (formBinds q)) (fun τ => AgreeOn B σ τ ∧ SatAll P q B τ) k ↔
      HasCount (Known.more B (formBinds q')) (fun τ => AgreeOn B σ τ ∧ SatAll P q' B τ) k := by
  have e1 : Known.more B (formBinds q) = Known.more B (formBinds q') := by
    funext x; exact propext (or_congr Iff.rfl (hb x))
  have e2 : (fun τ => AgreeOn B σ τ ∧ SatAll P q B τ) = fun τ => AgreeOn B σ τ ∧ SatAll P q' B τ := by
    funext τ; exact propext (and_congr_right fun h' => h.sat τ h'.1)
  rw [e1, e2]

mutual
theorem Adv.keeps (P : Program) (ar : String → Option Nat) (he : EarlyOk early) {q q' : List Form} : Adv early q q' → ∀ {B : String → Prop},
    Ordered q B → FormsTidy q B → Ordered q' B ∧ Keeps P ar q q' B
  | @Adv.mk _ _ e late l _ h1 hl h2 hq, B, ho, ht => by
    have hk' := fun ht => h2.keeps P ar he (B := Known.more B (formBinds e)) ht
    subst hl hq
    have ho1 := ordered_front he h1 ho
    have hp := adv_perm (early := early) h1
    have ht1 : FormsTidy (e ++ q.filter fun f => !early f) B :=
      (formsTidy_each _ _).2 (each_perm own_tidy hp ho ho1 ((formsTidy_each _ _).1 ht))
    rw [formsTidy_each, each_append, ← formsTidy_each, ← formsTidy_each] at ht1
    have hk := hk' ht1.2
    refine ⟨((AdvAll.refl e).append h2).ordered ho1, ?_, fun hok => ?_, fun σ hσ => ?_⟩
    · rw [formsTidy_each, each_append, ← formsTidy_each, ← formsTidy_each]
      exact ⟨ht1.1, hk.tidy⟩
    · have := each_perm (own_ok ar) hp ho ho1 ((formsOk_each _ _ _).1 hok)
      rw [each_append, ← formsOk_each, ← formsOk_each] at this
      rw [formsOk_each, each_append, ← formsOk_each, ← formsOk_each]
      exact ⟨this.1, hk.ok this.2⟩
    · have : SatAll P q B σ ↔ SatAll P (e ++ q.filter fun f => !early f) B σ := by
        rw [satAll_each, satAll_each]
        exact ⟨each_perm (own_sat P hσ) hp ho ho1, each_perm (own_sat P hσ) hp.symm ho1 ho⟩
      rw [this, satAll_each, satAll_each, each_append, each_append, ← satAll_each, ← satAll_each, ← satAll_each, hk.sat σ hσ]
theorem AdvAll.keeps (P : Program) (ar : String → Option Nat) (he : EarlyOk early) {q q' : List Form} : AdvAll early q q' →
    ∀ {B : String → Prop}, FormsTidy q B → Keeps P ar q q' B
  | .nil, _, ht => ⟨ht, fun h => h, fun σ _ => Iff.rfl⟩
  | .cons h1 h2, B, ht => by
    rw [FormsTidy] at ht
    obtain ⟨a1, a2, a3⟩ := h1.keeps P ar he ht.1
    have hk := h2.keeps P ar he ht.2
    refine ⟨?_, ?_, ?_⟩
    · rw [FormsTidy, ← h1.binds]; exact ⟨a1, hk.tidy⟩
    · rw [FormsOk, FormsOk, ← h1.binds]; exact fun h => ⟨a2 h.1, hk.ok h.2⟩
    · intro σ hσ
      rw [SatAll, SatAll, ← h1.binds, a3 σ hσ, hk.sat σ hσ]
theorem AdvForm.keeps (P : Program) (ar : String → Option Nat) (he : EarlyOk early) {f g : Form} : AdvForm early f g →
    ∀ {B : String → Prop}, f.Tidy B →
    g.Tidy B ∧ (f.Ok ar B → g.Ok ar B) ∧ ∀ σ : Assignment, (∀ x, Plain (σ x)) → (Sat P f B σ ↔ Sat P g B σ)
  | .same _, _, ht => ⟨ht, fun h => h, fun σ _ => Iff.rfl⟩
  | .neg h, B, ht => by
    rw [Form.Tidy] at ht
    obtain ⟨a, k⟩ := h.keeps P ar he ht.1 ht.2
    refine ⟨by rw [Form.Tidy]; exact ⟨a, k.tidy⟩, by rw [Form.Ok, Form.Ok]; exact k.ok, fun σ _ => ?_⟩
    rw [Sat, Sat, k.exists]
  | .thereIsNo h, B, ht => by
    rw [Form.Tidy] at ht
    obtain ⟨a, k⟩ := h.keeps P ar he ht.1 ht.2
    refine ⟨by rw [Form.Tidy]; exact ⟨a, k.tidy⟩, by rw [Form.Ok, Form.Ok]; exact k.ok, fun σ _ => ?_⟩
    rw [Sat, Sat, k.exists]
  | .thereIs h, B, ht => by
    rw [Form.Tidy] at ht
    obtain ⟨a, k⟩ := h.keeps P ar he ht.1 ht.2
    refine ⟨by rw [Form.Tidy]; exact ⟨a, k.tidy⟩, by rw [Form.Ok, Form.Ok]; exact k.ok, fun σ _ => ?_⟩
    rw [Sat, Sat, k.exists]
  | .exactly h, B, ht => by
    rw [Form.Tidy] at ht
    obtain ⟨a, k⟩ := h.keeps P ar he ht.1 ht.2
    refine ⟨by rw [Form.Tidy]; exact ⟨a, k.tidy⟩, by rw [Form.Ok, Form.Ok]; exact And.imp_left k.ok, fun σ _ => ?_⟩
    rw [Sat, Sat]
    exact exists_congr fun n => and_congr (k.count h.binds σ n) Iff.rfl
  | .moreThan h, B, ht => by
    rw [Form.Tidy] at ht
    obtain ⟨a, k⟩ := h.keeps P ar he ht.1 ht.2
    refine ⟨by rw [Form.Tidy]; exact ⟨a, k.tidy⟩, by rw [Form.Ok, Form.Ok]; exact And.imp_left k.ok, fun σ _ => ?_⟩
    rw [Sat, Sat]
    exact exists_congr fun n => exists_congr fun r => and_congr (k.count h.binds σ n) Iff.rfl
  | .fewerThan h, B, ht => by
    rw [Form.Tidy] at ht
    obtain ⟨a, k⟩ := h.keeps P ar he ht.1 ht.2
    refine ⟨by rw [Form.Tidy]; exact ⟨a, k.tidy⟩, by rw [Form.Ok, Form.Ok]; exact And.imp_left k.ok, fun σ _ => ?_⟩
    rw [Sat, Sat]
    exact exists_congr fun n => exists_congr fun r => and_congr (k.count h.binds σ n) Iff.rfl
  | .all h h', B, ht => by
    rw [Form.Tidy] at ht
    obtain ⟨a, k⟩ := h.keeps P ar he ht.1 ht.2.1
    obtain ⟨a', k'⟩ := h'.keeps P ar he ht.2.2.1 ht.2.2.2
    refine ⟨by rw [Form.Tidy]; exact ⟨a, k.tidy, a', k'.tidy⟩, ?_, fun σ _ => ?_⟩
    · rw [Form.Ok, Form.Ok]
      exact fun ⟨b1, b2, b3, b4⟩ => ⟨b1, (h.binds _).1 b2, k.ok b3, k'.ok b4⟩
    · rw [Sat, Sat]
      refine and_congr (exists_congr fun τ => and_congr_right fun h1 => and_congr_left' (k.sat τ h1.1))
        (forall_congr' fun τ => forall_congr' fun h1 => imp_congr (k.sat τ h1.1) (k'.exists τ))
  | .count h, B, ht => by
    rw [Form.Tidy] at ht
    obtain ⟨a, k⟩ := h.keeps P ar he ht.1 ht.2
    refine ⟨by rw [Form.Tidy]; exact ⟨a, k.tidy⟩, by rw [Form.Ok, Form.Ok]; exact And.imp_right k.ok, fun σ _ => ?_⟩
    rw [Sat, Sat]
    exact exists_congr fun n => and_congr (k.count h.binds σ n) Iff.rfl
end

end

end Verif
