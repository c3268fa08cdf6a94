import Verif.QuerySort
import Verif.IsolateLemmas

/-!
# Isolating independent parts keeps the meaning
-/

namespace Verif

/-- The parts of `rest`, in their order, such that they have no other variables in common than those of `h`. -/
structure Divides (h : Form) (rest : List Form) (ps : List (List Form)) : Prop where
  filtered : ∀ p ∈ ps, ∃ k : Form → Bool, p = rest.filter k
  cover : ∀ f ∈ rest, ∃ p ∈ ps, f ∈ p
  apart : ps.Pairwise fun p p' => ∀ x ∈ formVars p, x ∈ formVars p' → x ∈ h.vars

mutual
/-- The second query is the first part of the first query, followed by the independent parts of the rest; those without roots are inside
`scoped`. -/
inductive Iso : List String → List Form → List Form → Prop
  | nil {roots} : Iso roots [] []
  | cons {roots h rest ps out} : Divides h rest ps → Placed h roots ps out → Iso roots (h :: rest) (h :: out)
/-- The parts one after the other. -/
inductive Placed : Form → List String → List (List Form) → List Form → Prop
  | nil {h roots} : Placed h roots [] []
  | keep {h roots p ps out} : Placed h roots ps out → Placed h roots (p :: ps) (p ++ out)
  | scope {h roots p p' ps out} : (∀ x ∈ formVars p, x ∉ h.vars → x ∉ roots) → Iso [] p p' → Placed h roots ps out →
      Placed h roots (p :: ps) (.thereIs p' :: out)
end

/-- What isolating keeps. -/
structure IsoKeeps (P : Program) (ar : String → Option Nat) (roots : List String) (q q' : List Form) (B : String → Prop) : Prop where
  binds : ∀ x ∈ formBinds q', x ∈ formBinds q
  roots : ∀ x ∈ roots, x ∈ formBinds q → B x ∨ x ∈ formBinds q'
  ok : FormsOk ar q B → FormsOk ar q' B
  to : ∀ σ : Assignment, (∀ x, Plain (σ x)) → SatAll P q B σ → SatAll P q' B σ
  back : ∀ σ : Assignment, (∀ x, Plain (σ x)) → SatAll P q' B σ →
    ∃ τ : Assignment, (∀ x, Plain (τ x)) ∧ (∀ x, B x ∨ x ∈ formBinds q' ∨ x ∉ formVars q → τ x = σ x) ∧ SatAll P q B τ

/-- What placing the parts keeps, when `Bk` is known there. -/
structure PlaceKeeps (P : Program) (ar : String → Option Nat) (h : Form) (roots : List String) (ps : List (List Form)) (out : List Form)
    (Bh Bk : String → Prop) : Prop where
  binds : ∀ x ∈ formBinds out, ∃ p ∈ ps, x ∈ formBinds p
  roots : ∀ x ∈ roots, x ∉ h.vars → (∃ p ∈ ps, x ∈ formBinds p) → x ∈ formBinds out
  ok : (∀ p ∈ ps, FormsOk ar p Bh) → FormsOk ar out Bk
  to : ∀ σ : Assignment, (∀ x, Plain (σ x)) → (∀ p ∈ ps, SatAll P p Bh σ) → SatAll P out Bk σ
  back : ∀ σ : Assignment, (∀ x, Plain (σ x)) → SatAll P out Bk σ →
    ∃ τ : Assignment, (∀ x, Plain (τ x)) ∧ (∀ x, Bk x ∨ Bh x ∨ x ∈ formBinds out ∨ (∀ p ∈ ps, x ∉ formVars p) → τ x = σ x) ∧
      ∀ p ∈ ps, SatAll P p Bh τ

theorem ordered_shared {h : Form} {rest : List Form} {B : String → Prop} (hv : h.isFact = true → ∀ x ∈ h.vars, x ∈ h.binds)
    (ho : Ordered (h :: rest) B) {x : String} (hx : x ∈ h.vars) (hr : x ∈ formVars rest) : Known.more B h.binds x := by
  cases hf : h.isFact with
  | true => exact .inr (hv hf x hx)
  | false =>
    rcases (ho [] h rest rfl hf x hx).1 hr with h1 | h1 | h1
    · exact .inl h1
    · simp [formBinds] at h1
    · exact .inr h1.1

theorem fact_binds (h : Form) (hf : h.isFact = true) : ∀ x ∈ h.vars, x ∈ h.binds := by
  cases h <;> simp [Form.isFact] at hf <;> simp [Form.vars, Form.binds]

theorem mem_filter_vars {k : Form → Bool} {q : List Form} {x : String} (h : x ∈ formVars (q.filter k)) : x ∈ formVars q := by
  obtain ⟨f, hf, hx⟩ := mem_formVars.1 h
  exact mem_formVars.2 ⟨f, (List.mem_filter.1 hf).1, hx⟩

theorem mem_filter_binds {k : Form → Bool} {q : List Form} {x : String} (h : x ∈ formBinds (q.filter k)) : x ∈ formBinds q := by
  obtain ⟨f, hf, hx⟩ := mem_formBinds.1 h
  exact mem_formBinds.2 ⟨f, (List.mem_filter.1 hf).1, hx⟩

section
variable {h : Form} {rest : List Form} {ps : List (List Form)} {B : String → Prop}

theorem Divides.mem_vars (hd : Divides h rest ps) {p : List Form} (hp : p ∈ ps) {x : String} (hx : x ∈ formVars p) : x ∈ formVars rest := by
  obtain ⟨k, rfl⟩ := hd.filtered p hp
  exact mem_filter_vars hx

/-- A part that shares a variable with a member of `p`, other than those of the first part of the query, is in `p`. -/
theorem Divides.closed (hd : Divides h rest ps) {p : List Form} (hp : p ∈ ps) {f g : Form} (hf : f ∈ p) (hg : g ∈ rest) {x : String}
    (hxf : x ∈ f.vars) (hxg : x ∈ g.vars) (hx : x ∉ h.vars) : g ∈ p := by
  obtain ⟨p', hp', hg'⟩ := hd.cover g hg
  obtain ⟨l1, l2, rfl⟩ := List.append_of_mem hp
  have h1 := mem_formVars.2 ⟨f, hf, hxf⟩
  have h2 := mem_formVars.2 ⟨g, hg', hxg⟩
  obtain ⟨a1, a2, a3⟩ := List.pairwise_append.1 hd.apart
  rcases List.mem_append.1 hp' with h3 | h3
  · exact absurd (a3 p' h3 p (by simp) x h2 h1) hx
  · rcases List.mem_cons.1 h3 with rfl | h3
    · exact hg'
    · exact absurd ((List.pairwise_cons.1 a2).1 p' h3 x h1 h2) hx

theorem each_divides {R : Form → (String → Prop) → Prop} (hR : Own R) (hd : Divides h rest ps) (ho : Ordered (h :: rest) B) :
    Each R rest (Known.more B h.binds) ↔ ∀ p ∈ ps, Each R p (Known.more B h.binds) := by
  have key : ∀ {p : List Form} {k : Form → Bool} {l1 l2 : List Form} {f : Form}, p ∈ ps → p = rest.filter k → rest = l1 ++ f :: l2 → k f = true →
      SameKnown f.vars (Known.more (Known.more B h.binds) (formBinds l1)) (Known.more (Known.more B h.binds) (formBinds (l1.filter k))) := by
    intro p k l1 l2 f hp hk hr hkf x hx
    refine ⟨?_, fun h' => h'.imp_right mem_filter_binds⟩
    rintro (h' | h')
    · exact .inl h'
    · obtain ⟨g, hg, hxg⟩ := mem_formBinds.1 h'
      have hgr : g ∈ rest := by rw [hr]; simp [hg]
      have hfr : f ∈ rest := by rw [hr]; simp
      have hxg' := Form.binds_vars g x hxg
      by_cases hxh : x ∈ h.vars
      · exact .inl (ordered_shared (fact_binds h) ho hxh (mem_formVars.2 ⟨g, hgr, hxg'⟩))
      · have := hd.closed hp (show f ∈ p by rw [hk]; exact List.mem_filter.2 ⟨hfr, hkf⟩) hgr hx hxg' hxh
        rw [hk] at this
        exact .inr (mem_formBinds.2 ⟨g, List.mem_filter.2 ⟨hg, (List.mem_filter.1 this).2⟩, hxg⟩)
  constructor
  · intro hr p hp
    obtain ⟨k, hk⟩ := hd.filtered p hp
    rw [each_iff] at hr ⊢
    intro l1 f l2 e
    rw [hk] at e
    obtain ⟨n1, n2', e1, hn1, hn2⟩ := List.filter_eq_append_iff.1 e
    obtain ⟨n2, n3, rfl, hn3, hn4, hn5⟩ := List.filter_eq_cons_iff.1 hn2
    have e2 : rest = (n1 ++ n2) ++ f :: n3 := by rw [e1]; simp
    have h1 := hR.same (key hp hk e2 hn4) (hr _ f n3 e2)
    rw [List.filter_append, hn1, List.filter_eq_nil_iff.2 hn3, List.append_nil] at h1
    exact h1
  · intro hr
    rw [each_iff]
    intro l1 f l2 e
    obtain ⟨p, hp, hfp⟩ := hd.cover f (by rw [e]; simp)
    obtain ⟨k, hk⟩ := hd.filtered p hp
    have hkf : k f = true := by rw [hk] at hfp; exact (List.mem_filter.1 hfp).2
    refine hR.same (key hp hk e hkf).symm (each_iff.1 (hr p hp) (l1.filter k) f (l2.filter k) ?_)
    rw [hk, e, List.filter_append, List.filter_cons, if_pos hkf]

theorem Divides.ordered (hd : Divides h rest ps) (ho : Ordered (h :: rest) B) {p : List Form} (hp : p ∈ ps) :
    Ordered p (Known.more B h.binds) := by
  obtain ⟨k, hk⟩ := hd.filtered p hp
  intro l1 f l2 e hf x hx
  have e' := e
  rw [hk] at e
  obtain ⟨n1, n2', e1, hn1, hn2⟩ := List.filter_eq_append_iff.1 e
  obtain ⟨n2, n3, rfl, hn3, hn4, hn5⟩ := List.filter_eq_cons_iff.1 hn2
  have e2 : h :: rest = (h :: (n1 ++ n2)) ++ f :: n3 := by rw [e1]; simp
  have el1 : l1 = (n1 ++ n2).filter k := by rw [List.filter_append, hn1, List.filter_eq_nil_iff.2 hn3, List.append_nil]
  obtain ⟨a1, a2⟩ := ho _ f n3 e2 hf x hx
  refine ⟨fun hv => ?_, fun hei hb => .inl (a2 hei ?_)⟩
  · have hv' : x ∈ formVars (h :: (n1 ++ n2) ++ n3) := by
      rw [List.cons_append, formVars, List.mem_append, formVars_append, List.mem_append]
      rw [formVars_append, List.mem_append, el1, ← hn5] at hv
      exact .inr (hv.imp mem_filter_vars mem_filter_vars)
    rcases a1 hv' with h1 | h1 | ⟨h1, h2⟩
    · exact .inl (.inl h1)
    · rw [formBinds, List.mem_append] at h1
      rcases h1 with h1 | h1
      · exact .inl (.inr h1)
      · obtain ⟨g, hg, hxg⟩ := mem_formBinds.1 h1
        have hgr : g ∈ rest := by rw [e1]; rcases List.mem_append.1 hg with h' | h' <;> simp [h']
        have hxg' := Form.binds_vars g x hxg
        by_cases hxh : x ∈ h.vars
        · exact .inl (ordered_shared (fact_binds h) ho hxh (mem_formVars.2 ⟨g, hgr, hxg'⟩))
        · have := hd.closed hp (show f ∈ p by rw [e']; simp) hgr hx hxg' hxh
          rw [hk] at this
          right; left
          rw [el1]
          exact mem_formBinds.2 ⟨g, List.mem_filter.2 ⟨hg, (List.mem_filter.1 this).2⟩, hxg⟩
    · exact .inr (.inr ⟨h1, fun h' => h2 (by rw [← hn5] at h'; exact mem_filter_binds h')⟩)
  · rw [List.cons_append, formBinds, List.mem_append, formBinds_append, List.mem_append]
    rw [formBinds_append, List.mem_append, el1, ← hn5] at hb
    exact .inr (hb.imp mem_filter_binds mem_filter_binds)

end

theorem thereIs_none (p : List Form) : (Form.thereIs p).binds = [] := by simp [Form.binds]

theorem thereIs_binds (p : List Form) (out : List Form) : formBinds (.thereIs p :: out) = formBinds out := by
  rw [formBinds, thereIs_none, List.nil_append]

mutual
theorem Iso.keeps (P : Program) (ar : String → Option Nat) {roots : List String} {q q' : List Form} : Iso roots q q' →
    ∀ {B : String → Prop}, Ordered q B → FormsTidy q B → IsoKeeps P ar roots q q' B
  | .nil, B, _, _ => ⟨fun _ h => h, fun _ _ h => .inr h, fun h => h, fun _ _ h => h, fun σ hp h => ⟨σ, hp, fun _ _ => rfl, h⟩⟩
  | @Iso.cons _ h rest ps out hd hpl, B, ho, ht => by
    rw [FormsTidy] at ht
    have hshare : ∀ x ∈ h.vars, x ∈ formVars rest → Known.more B h.binds x := fun x => ordered_shared (fact_binds h) ho
    have k := hpl.keeps P ar (Bh := Known.more B h.binds) (Bk := Known.more B h.binds)
      (hd.apart.imp_of_mem fun {a b} ha hb hab x hx hx' => hshare x (hab x hx hx') (hd.mem_vars ha hx))
      (fun p _ x _ => Iff.rfl) (fun p hp => hd.ordered ho hp)
      (fun p hp => (formsTidy_each _ _).2 ((each_divides own_tidy hd ho).1 ((formsTidy_each _ _).1 ht.2) p hp))
    refine ⟨?_, ?_, ?_, ?_, ?_⟩
    · intro x hx
      rw [formBinds, List.mem_append] at hx ⊢
      refine hx.imp_right fun hx => ?_
      obtain ⟨p, hp, hx⟩ := k.binds x hx
      obtain ⟨k, rfl⟩ := hd.filtered p hp
      exact mem_filter_binds hx
    · intro x hr hx
      rw [formBinds, List.mem_append] at hx ⊢
      rcases hx with hx | hx
      · exact .inr (.inl hx)
      · by_cases hxh : x ∈ h.vars
        · exact (hshare x hxh (formBinds_mem_vars _ _ hx)).imp_right .inl
        · obtain ⟨f, hf, hxf⟩ := mem_formBinds.1 hx
          obtain ⟨p, hp, hfp⟩ := hd.cover f hf
          exact .inr (.inr (k.roots x hr hxh ⟨p, hp, mem_formBinds.2 ⟨f, hfp, hxf⟩⟩))
    · rw [FormsOk, FormsOk]
      rintro ⟨h1, h2⟩
      exact ⟨h1, k.ok fun p hp => (formsOk_each _ _ _).2 ((each_divides (own_ok ar) hd ho).1 ((formsOk_each _ _ _).1 h2) p hp)⟩
    · intro σ hσ
      rw [SatAll, SatAll]
      rintro ⟨h1, h2⟩
      exact ⟨h1, k.to σ hσ fun p hp => (satAll_each _ _ _ _).2 ((each_divides (own_sat P hσ) hd ho).1 ((satAll_each _ _ _ _).1 h2) p hp)⟩
    · intro σ hσ
      rw [SatAll]
      rintro ⟨h1, h2⟩
      obtain ⟨τ, b1, b2, b3⟩ := k.back σ hσ h2
      refine ⟨τ, b1, ?_, ?_⟩
      · intro x hx
        rw [formBinds, formVars, List.mem_append, List.mem_append] at hx
        apply b2
        rcases hx with hx | (hx | hx) | hx
        · exact .inl (.inl hx)
        · exact .inl (.inr hx)
        · exact .inr (.inr (.inl hx))
        · exact .inr (.inr (.inr fun p hp h' => hx (.inr (hd.mem_vars hp h'))))
      · rw [SatAll]
        refine ⟨(sat_same P h (fun _ _ => Iff.rfl) (fun x hx => ?_) hσ b1).1 h1, ?_⟩
        · symm
          apply b2
          by_cases hr : x ∈ formVars rest
          · exact .inl (hshare x hx hr)
          · exact .inr (.inr (.inr fun p hp h' => hr (hd.mem_vars hp h')))
        · exact (satAll_each _ _ _ _).2 ((each_divides (own_sat P b1) hd ho).2 fun p hp => (satAll_each _ _ _ _).1 (b3 p hp))
theorem Placed.keeps (P : Program) (ar : String → Option Nat) {h : Form} {roots : List String} {ps : List (List Form)} {out : List Form} :
    Placed h roots ps out → ∀ {Bh Bk : String → Prop}, ps.Pairwise (fun p p' => ∀ x ∈ formVars p, x ∈ formVars p' → Bh x) →
    (∀ p ∈ ps, SameKnown (formVars p) Bh Bk) → (∀ p ∈ ps, Ordered p Bh) → (∀ p ∈ ps, FormsTidy p Bh) → PlaceKeeps P ar h roots ps out Bh Bk
  | .nil, _, _, _, _, _, _ => ⟨by simp [formBinds], by simp, by simp [FormsOk], by simp [SatAll],
      fun σ hσ _ => ⟨σ, hσ, fun _ _ => rfl, by simp⟩⟩
  | @Placed.keep _ _ p ps out hpl, Bh, Bk, ha, hs, ho, ht => by
    obtain ⟨ha1, ha2⟩ := List.pairwise_cons.1 ha
    have k := hpl.keeps P ar (Bh := Bh) (Bk := Known.more Bk (formBinds p)) ha2
      (fun p2 hp2 x hx => by
        rw [hs p2 (by simp [hp2]) x hx]
        refine ⟨.inl, ?_⟩
        rintro (h' | h')
        · exact h'
        · exact (hs p2 (by simp [hp2]) x hx).1 (ha1 p2 hp2 x (formBinds_mem_vars _ _ h') hx))
      (fun p hp => ho p (by simp [hp])) (fun p hp => ht p (by simp [hp]))
    have hsp := hs p (by simp)
    refine ⟨?_, ?_, ?_, ?_, ?_⟩
    · intro x hx
      rw [formBinds_append, List.mem_append] at hx
      rcases hx with hx | hx
      · exact ⟨p, by simp, hx⟩
      · obtain ⟨p', hp', hx⟩ := k.binds x hx
        exact ⟨p', by simp [hp'], hx⟩
    · rintro x hr hxh ⟨p', hp', hx⟩
      rw [formBinds_append, List.mem_append]
      rcases List.mem_cons.1 hp' with rfl | hp'
      · exact .inl hx
      · exact .inr (k.roots x hr hxh ⟨p', hp', hx⟩)
    · intro h1
      exact formsOk_append.2 ⟨formsOk_same ar p hsp (h1 p (by simp)), k.ok fun p hp => h1 p (by simp [hp])⟩
    · intro σ hσ h1
      exact satAll_append.2 ⟨(satAll_own P p hsp (fun _ _ => rfl) hσ hσ).1 (h1 p (by simp)), k.to σ hσ fun p hp => h1 p (by simp [hp])⟩
    · intro σ hσ h1
      obtain ⟨h1, h2⟩ := satAll_append.1 h1
      obtain ⟨τ, b1, b2, b3⟩ := k.back σ hσ h2
      refine ⟨τ, b1, ?_, ?_⟩
      · intro x hx
        apply b2
        rw [formBinds_append, List.mem_append] at hx
        rcases hx with hx | hx | (hx | hx) | hx
        · exact .inl (.inl hx)
        · exact .inr (.inl hx)
        · exact .inl (.inr hx)
        · exact .inr (.inr (.inl hx))
        · exact .inr (.inr (.inr fun p hp => hx p (by simp [hp])))
      · intro p' hp'
        rcases List.mem_cons.1 hp' with rfl | hp'
        · refine (satAll_own P p' hsp.symm (fun x hx => ?_) hσ b1).1 h1
          symm
          apply b2
          by_cases hps : ∃ p2 ∈ ps, x ∈ formVars p2
          · obtain ⟨p2, hp2, hx2⟩ := hps
            exact .inr (.inl (ha1 p2 hp2 x hx hx2))
          · exact .inr (.inr (.inr fun p2 hp2 h' => hps ⟨p2, hp2, h'⟩))
        · exact b3 p' hp'
  | @Placed.scope _ _ p p' ps out hroots hiso hpl, Bh, Bk, ha, hs, ho, ht => by
    obtain ⟨ha1, ha2⟩ := List.pairwise_cons.1 ha
    have k := hpl.keeps P ar (Bh := Bh) (Bk := Bk) ha2 (fun p hp => hs p (by simp [hp])) (fun p hp => ho p (by simp [hp]))
      (fun p hp => ht p (by simp [hp]))
    have hsp := hs p (by simp)
    have i := hiso.keeps P ar (B := Bk) (ordered_same hsp (ho p (by simp))) (formsTidy_same p hsp (ht p (by simp)))
    refine ⟨?_, ?_, ?_, ?_, ?_⟩
    · intro x hx
      rw [thereIs_binds] at hx
      obtain ⟨p', hp', hx⟩ := k.binds x hx
      exact ⟨p', by simp [hp'], hx⟩
    · rintro x hr hxh ⟨p2, hp2, hx⟩
      rw [thereIs_binds]
      rcases List.mem_cons.1 hp2 with rfl | hp2
      · exact absurd hr (hroots x (formBinds_mem_vars _ _ hx) hxh)
      · exact k.roots x hr hxh ⟨p2, hp2, hx⟩
    · intro h1
      rw [FormsOk, Form.Ok, thereIs_none, more_nil]
      exact ⟨i.ok (formsOk_same ar p hsp (h1 p (by simp))), k.ok fun p hp => h1 p (by simp [hp])⟩
    · intro σ hσ h1
      rw [SatAll, Sat, thereIs_none, more_nil]
      exact ⟨⟨σ, ⟨hσ, fun _ _ => rfl⟩, i.to σ hσ ((satAll_own P p hsp (fun _ _ => rfl) hσ hσ).1 (h1 p (by simp)))⟩,
        k.to σ hσ fun p hp => h1 p (by simp [hp])⟩
    · intro σ hσ h1
      rw [SatAll, Sat, thereIs_none, more_nil] at h1
      obtain ⟨⟨τ1, hτ1, h1⟩, h2⟩ := h1
      obtain ⟨ρ, c1, c2, c3⟩ := i.back τ1 hτ1.1 h1
      obtain ⟨τ, b1, b2, b3⟩ := k.back σ hσ h2
      have hdec : ∀ x, Decidable (x ∈ formVars p ∧ ¬ Bh x) := fun x => Classical.propDecidable _
      refine ⟨fun x => if x ∈ formVars p ∧ ¬ Bh x then ρ x else τ x, ?_, ?_, ?_⟩
      · intro x
        show Plain (if x ∈ formVars p ∧ ¬ Bh x then ρ x else τ x)
        split
        · exact c1 x
        · exact b1 x
      · intro x hx
        show (if x ∈ formVars p ∧ ¬ Bh x then ρ x else τ x) = σ x
        split
        · rename_i hc
          rw [thereIs_binds] at hx
          rcases hx with hx | hx | hx | hx
          · exact absurd ((hsp x hc.1).2 hx) hc.2
          · exact absurd hx hc.2
          · obtain ⟨p2, hp2, hx2⟩ := k.binds x hx
            exact absurd (ha1 p2 hp2 x hc.1 (formBinds_mem_vars _ _ hx2)) hc.2
          · exact absurd hc.1 (hx p (by simp))
        · apply b2
          rw [thereIs_binds] at hx
          rcases hx with hx | hx | hx | hx
          · exact .inl hx
          · exact .inr (.inl hx)
          · exact .inr (.inr (.inl hx))
          · exact .inr (.inr (.inr fun p hp => hx p (by simp [hp])))
      · have hplain : ∀ x, Plain ((fun x => if x ∈ formVars p ∧ ¬ Bh x then ρ x else τ x) x) := by
          intro x
          show Plain (if x ∈ formVars p ∧ ¬ Bh x then ρ x else τ x)
          split
          · exact c1 x
          · exact b1 x
        intro p2 hp2
        rcases List.mem_cons.1 hp2 with rfl | hp2
        · refine (satAll_own P p2 hsp.symm (fun x hx => ?_) c1 hplain).1 c3
          show ρ x = if x ∈ formVars p2 ∧ ¬ Bh x then ρ x else τ x
          split
          · rfl
          · rename_i hc
            have hB : Bh x := Classical.byContradiction fun h' => hc ⟨hx, h'⟩
            have hBk := (hsp x hx).1 hB
            rw [c2 x (.inl hBk), hτ1.2 x hBk, b2 x (.inl hBk)]
        · refine (satAll_own P p2 (fun _ _ => Iff.rfl) (fun x hx => ?_) b1 hplain).1 (b3 p2 hp2)
          show τ x = if x ∈ formVars p ∧ ¬ Bh x then ρ x else τ x
          split
          · rename_i hc
            exact absurd (ha1 p2 hp2 x hc.1 hx) hc.2
          · rfl
end

end Verif
