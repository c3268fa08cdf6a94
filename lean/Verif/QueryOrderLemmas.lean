import Verif.QueryOrder
import Verif.QuantifiedLemmas

/-!
# Truth of a part of a query depends on its own variables only
-/

namespace Verif

theorem mem_formVars {q : List Form} {x : String} : x ∈ formVars q ↔ ∃ f ∈ q, x ∈ f.vars := by
  induction q with
  | nil => simp [formVars]
  | cons f fs ih => simp [formVars, ih]

theorem mem_altVars {qs : List (List Form)} {x : String} : x ∈ altVars qs ↔ ∃ q ∈ qs, x ∈ formVars q := by
  induction qs with
  | nil => simp [altVars]
  | cons q qs ih => simp [altVars, ih]

theorem mem_formBinds {q : List Form} {x : String} : x ∈ formBinds q ↔ ∃ f ∈ q, x ∈ f.binds := by
  induction q with
  | nil => simp [formBinds]
  | cons f fs ih => simp [formBinds, ih]

mutual
theorem Form.binds_vars : ∀ (f : Form) (x : String), x ∈ f.binds → x ∈ f.vars
  | .atom _ _, x, h => by simpa [Form.binds, Form.vars] using h
  | .neg _, x, h => by simp [Form.binds] at h
  | .thereIsNo _, x, h => by simp [Form.binds] at h
  | .thereIs _, x, h => by simp [Form.binds] at h
  | .exactly _ _, x, h => by simp [Form.binds] at h
  | .moreThan _ _, x, h => by simp [Form.binds] at h
  | .fewerThan _ _, x, h => by simp [Form.binds] at h
  | .all _ _ _, x, h => by simp only [Form.binds, List.mem_singleton] at h; simp [Form.vars, h]
  | .count _ _, x, h => by simp only [Form.binds, List.mem_singleton] at h; simp [Form.vars, h]
  | .either qs, x, h => by
    rw [Form.binds] at h
    rw [Form.vars]
    exact altBinds_mem_vars qs x h
  | .equals _ _, x, h => by simpa [Form.binds, Form.vars] using h
  | .greater _ _, x, h => by simp [Form.binds] at h
  | .less _ _, x, h => by simp [Form.binds] at h
  | .assign _ _, x, h => by simp only [Form.binds, List.mem_singleton] at h; simp [Form.vars, h]
  | .times _ _ _, x, h => by simp only [Form.binds, List.mem_singleton] at h; simp [Form.vars, h]
theorem formBinds_mem_vars : ∀ (q : List Form) (x : String), x ∈ formBinds q → x ∈ formVars q
  | [], x, h => by simp [formBinds] at h
  | f :: fs, x, h => by
    rw [formBinds, List.mem_append] at h
    rw [formVars, List.mem_append]
    exact h.imp (Form.binds_vars f x) (formBinds_mem_vars fs x)
theorem altBinds_mem_vars : ∀ (qs : List (List Form)) (x : String), x ∈ altBinds qs → x ∈ altVars qs
  | [], x, h => by simp [altBinds] at h
  | q :: qs, x, h => by
    rw [altBinds] at h
    rw [altVars, List.mem_append]
    exact .inl (formBinds_mem_vars q x h)
end

/-- The same variables of `V` are known. -/
def SameKnown (V : List String) (B B' : String → Prop) : Prop := ∀ x ∈ V, B x ↔ B' x

/-- The variables of `V` have the same values. -/
def SameVals (V : List String) (σ σ' : Assignment) : Prop := ∀ x ∈ V, σ x = σ' x

theorem SameKnown.symm {V : List String} {B B' : String → Prop} (h : SameKnown V B B') : SameKnown V B' B := fun x hx => (h x hx).symm

theorem SameVals.symm {V : List String} {σ σ' : Assignment} (h : SameVals V σ σ') : SameVals V σ' σ := fun x hx => (h x hx).symm

theorem SameKnown.more {V : List String} {B B' : String → Prop} (h : SameKnown V B B') (xs : List String) :
    SameKnown V (Known.more B xs) (Known.more B' xs) := fun x hx => or_congr (h x hx) Iff.rfl

theorem SameKnown.sub {V V' : List String} {B B' : String → Prop} (h : SameKnown V B B') (hs : ∀ x ∈ V', x ∈ V) : SameKnown V' B B' :=
  fun x hx => h x (hs x hx)

theorem SameVals.sub {V V' : List String} {σ σ' : Assignment} (h : SameVals V σ σ') (hs : ∀ x ∈ V', x ∈ V) : SameVals V' σ σ' :=
  fun x hx => h x (hs x hx)

/-- `τ` on the variables of `V`, `σ` elsewhere. -/
def patch (V : List String) (τ σ : Assignment) : Assignment := fun x => if x ∈ V then τ x else σ x

theorem patch_in {V : List String} {τ σ : Assignment} : SameVals V (patch V τ σ) τ := fun x hx => by simp [patch, hx]

theorem patch_plain {V : List String} {τ σ : Assignment} (h : ∀ x, Plain (τ x)) (h' : ∀ x, Plain (σ x)) (x : String) :
    Plain (patch V τ σ x) := by
  simp only [patch]; split <;> simp [h, h']

theorem patch_agree {V : List String} {B B' : String → Prop} {σ σ' τ : Assignment} (hB : SameKnown V B B') (hσ : SameVals V σ σ')
    (hp : ∀ x, Plain (σ' x)) (h : AgreeOn B σ τ) : AgreeOn B' σ' (patch V τ σ') := by
  refine ⟨patch_plain h.1 hp, fun x hx => ?_⟩
  simp only [patch]
  split
  · rename_i hV
    rw [h.2 x ((hB x hV).2 hx), hσ x hV]
  · rfl

/-- Truth of something that depends on the variables `V` only. -/
theorem exists_agree {V : List String} {B B' : String → Prop} {σ σ' : Assignment} {S S' : Assignment → Prop} (hB : SameKnown V B B')
    (hσ : SameVals V σ σ') (hp' : ∀ x, Plain (σ' x))
    (hS : ∀ τ τ', (∀ x, Plain (τ x)) → (∀ x, Plain (τ' x)) → SameVals V τ τ' → (S τ ↔ S' τ'))
    (h : ∃ τ, AgreeOn B σ τ ∧ S τ) : ∃ τ, AgreeOn B' σ' τ ∧ S' τ := by
  obtain ⟨τ, h1, h2⟩ := h
  have h3 := patch_agree hB hσ hp' h1
  exact ⟨_, h3, (hS τ _ h1.1 h3.1 patch_in.symm).1 h2⟩

theorem hasCount_agree {V xs : List String} (hxs : ∀ x ∈ xs, x ∈ V) {B B' : String → Prop} {σ σ' : Assignment} {S S' : Assignment → Prop}
    (hB : SameKnown V B B') (hσ : SameVals V σ σ') (hp : ∀ x, Plain (σ x)) (hp' : ∀ x, Plain (σ' x))
    (hS : ∀ τ τ', (∀ x, Plain (τ x)) → (∀ x, Plain (τ' x)) → SameVals V τ τ' → (S τ ↔ S' τ')) {k : Nat}
    (h : HasCount (Known.more B xs) (fun τ => AgreeOn B σ τ ∧ S τ) k) : HasCount (Known.more B' xs) (fun τ => AgreeOn B' σ' τ ∧ S' τ) k := by
  obtain ⟨L, h1, h2, h3, h4⟩ := h
  refine ⟨L.map fun τ => patch V τ σ', by simp [h1], ?_, ?_, ?_⟩
  · intro τ' hτ'
    obtain ⟨τ, hτ, rfl⟩ := List.mem_map.1 hτ'
    obtain ⟨a1, a2⟩ := h2 τ hτ
    have a3 := patch_agree hB hσ hp' a1
    exact ⟨a3, (hS τ _ a1.1 a3.1 patch_in.symm).1 a2⟩
  · rw [List.pairwise_map]
    refine List.Pairwise.imp_of_mem ?_ h3
    rintro τ1 τ2 hτ1 hτ2 ⟨x, hx, hne⟩
    rcases hx with hx | hx
    · exact absurd (((h2 τ1 hτ1).1.2 x hx).trans ((h2 τ2 hτ2).1.2 x hx).symm) hne
    · exact ⟨x, .inr hx, by rw [patch_in x (hxs x hx), patch_in x (hxs x hx)]; exact hne⟩
  · rintro ρ ⟨a1, a2⟩
    have a3 := patch_agree hB.symm hσ.symm hp a1
    obtain ⟨τ, hτ, he⟩ := h4 _ ⟨a3, (hS _ ρ a3.1 a1.1 patch_in).2 a2⟩
    refine ⟨_, List.mem_map.2 ⟨τ, hτ, rfl⟩, fun x hx => ?_⟩
    rcases hx with hx | hx
    · rw [a1.2 x hx, (patch_agree hB hσ hp' (h2 τ hτ).1).2 x hx]
    · rw [patch_in x (hxs x hx), ← he x (.inr hx), patch_in x (hxs x hx)]

theorem given_known {v : Value} {B B' : String → Prop} (h : SameKnown (argVars [v]) B B') : Given B v ↔ Given B' v := by
  cases v with
  | var x => exact h x (by simp [argVars])
  | _ => exact Iff.rfl

mutual
/-- Truth depends on which of the part's variables are known, and on their values. -/
theorem sat_same (P : Program) : ∀ (f : Form) {B B' : String → Prop} {σ σ' : Assignment}, SameKnown f.vars B B' → SameVals f.vars σ σ' →
    (∀ x, Plain (σ x)) → (∀ x, Plain (σ' x)) → (Sat P f B σ ↔ Sat P f B' σ')
  | .atom p args, B, B', σ, σ', hB, hσ, hp, hp' => by
    rw [Sat, Sat, List.map_congr_left fun a ha => inst_congr fun x hx => hσ x (by rw [Form.vars]; exact argVars_mem ha hx)]
  | .neg q, B, B', σ, σ', hB, hσ, hp, hp' => by
    rw [Form.vars] at hB hσ
    rw [Sat, Sat]
    refine not_congr ⟨exists_agree hB hσ hp' fun τ τ' h1 h2 h3 => satAll_own P q hB h3 h1 h2,
      exists_agree hB.symm hσ.symm hp fun τ τ' h1 h2 h3 => (satAll_own P q hB h3.symm h2 h1).symm⟩
  | .thereIsNo q, B, B', σ, σ', hB, hσ, hp, hp' => by
    rw [Form.vars] at hB hσ
    rw [Sat, Sat]
    refine not_congr ⟨exists_agree hB hσ hp' fun τ τ' h1 h2 h3 => satAll_own P q hB h3 h1 h2,
      exists_agree hB.symm hσ.symm hp fun τ τ' h1 h2 h3 => (satAll_own P q hB h3.symm h2 h1).symm⟩
  | .thereIs q, B, B', σ, σ', hB, hσ, hp, hp' => by
    rw [Form.vars] at hB hσ
    rw [Sat, Sat]
    exact ⟨exists_agree hB hσ hp' fun τ τ' h1 h2 h3 => satAll_own P q hB h3 h1 h2,
      exists_agree hB.symm hσ.symm hp fun τ τ' h1 h2 h3 => (satAll_own P q hB h3.symm h2 h1).symm⟩
  | .exactly q n, B, B', σ, σ', hB, hσ, hp, hp' => by
    rw [Form.vars] at hB hσ
    have hB1 := hB.sub (V' := formVars q) fun x hx => List.mem_append.2 (.inl hx)
    have hσ1 := hσ.sub (V' := formVars q) fun x hx => List.mem_append.2 (.inl hx)
    have hn : inst σ n = inst σ' n := inst_congr fun x hx => hσ x (List.mem_append.2 (.inr hx))
    rw [Sat, Sat, hn]
    refine exists_congr fun k => and_congr ⟨hasCount_agree (formBinds_mem_vars q) hB1 hσ1 hp hp' fun τ τ' h1 h2 h3 => satAll_own P q hB1 h3 h1 h2,
      hasCount_agree (formBinds_mem_vars q) hB1.symm hσ1.symm hp' hp fun τ τ' h1 h2 h3 => (satAll_own P q hB1 h3.symm h2 h1).symm⟩ Iff.rfl
  | .moreThan q n, B, B', σ, σ', hB, hσ, hp, hp' => by
    rw [Form.vars] at hB hσ
    have hB1 := hB.sub (V' := formVars q) fun x hx => List.mem_append.2 (.inl hx)
    have hσ1 := hσ.sub (V' := formVars q) fun x hx => List.mem_append.2 (.inl hx)
    have hn : inst σ n = inst σ' n := inst_congr fun x hx => hσ x (List.mem_append.2 (.inr hx))
    rw [Sat, Sat, hn]
    refine exists_congr fun k => exists_congr fun r => and_congr
      ⟨hasCount_agree (formBinds_mem_vars q) hB1 hσ1 hp hp' fun τ τ' h1 h2 h3 => satAll_own P q hB1 h3 h1 h2,
      hasCount_agree (formBinds_mem_vars q) hB1.symm hσ1.symm hp' hp fun τ τ' h1 h2 h3 => (satAll_own P q hB1 h3.symm h2 h1).symm⟩ Iff.rfl
  | .fewerThan q n, B, B', σ, σ', hB, hσ, hp, hp' => by
    rw [Form.vars] at hB hσ
    have hB1 := hB.sub (V' := formVars q) fun x hx => List.mem_append.2 (.inl hx)
    have hσ1 := hσ.sub (V' := formVars q) fun x hx => List.mem_append.2 (.inl hx)
    have hn : inst σ n = inst σ' n := inst_congr fun x hx => hσ x (List.mem_append.2 (.inr hx))
    rw [Sat, Sat, hn]
    refine exists_congr fun k => exists_congr fun r => and_congr
      ⟨hasCount_agree (formBinds_mem_vars q) hB1 hσ1 hp hp' fun τ τ' h1 h2 h3 => satAll_own P q hB1 h3 h1 h2,
      hasCount_agree (formBinds_mem_vars q) hB1.symm hσ1.symm hp' hp fun τ τ' h1 h2 h3 => (satAll_own P q hB1 h3.symm h2 h1).symm⟩ Iff.rfl
  | .all x r q, B, B', σ, σ', hB, hσ, hp, hp' => by
    rw [Form.vars] at hB hσ
    have half : ∀ {B B' : String → Prop} {σ σ' : Assignment}, SameKnown (x :: (formVars r ++ formVars q)) B B' →
        SameVals (x :: (formVars r ++ formVars q)) σ σ' → (∀ x, Plain (σ x)) → (∀ x, Plain (σ' x)) →
        (∀ τ τ', (∀ x, Plain (τ x)) → (∀ x, Plain (τ' x)) → SameVals (x :: (formVars r ++ formVars q)) τ τ' → (SatAll P r B τ ↔ SatAll P r B' τ')) →
        (∀ τ τ', (∀ x, Plain (τ x)) → (∀ x, Plain (τ' x)) → SameVals (x :: (formVars r ++ formVars q)) τ τ' →
          (SatAll P q (Known.more B [x]) τ ↔ SatAll P q (Known.more B' [x]) τ')) →
        (((∃ τ, AgreeOn B σ τ ∧ SatAll P r B τ ∧ τ x = σ x) ∧
          ∀ τ, AgreeOn B σ τ → SatAll P r B τ → ∃ τ', AgreeOn (Known.more B [x]) τ τ' ∧ SatAll P q (Known.more B [x]) τ') →
        ((∃ τ, AgreeOn B' σ' τ ∧ SatAll P r B' τ ∧ τ x = σ' x) ∧
          ∀ τ, AgreeOn B' σ' τ → SatAll P r B' τ → ∃ τ', AgreeOn (Known.more B' [x]) τ τ' ∧ SatAll P q (Known.more B' [x]) τ')) := by
      intro B B' σ σ' hB hσ hp hp' hr hq h
      refine ⟨?_, fun τ h1 h2 => ?_⟩
      · refine exists_agree (S := fun τ => SatAll P r B τ ∧ τ x = σ x) hB hσ hp' (fun τ τ' h1 h2 h3 => ?_) h.1
        rw [hr τ τ' h1 h2 h3, h3 x (by simp), hσ x (by simp)]
      · have h3 := patch_agree hB.symm hσ.symm hp h1
        have h4 := h.2 _ h3 ((hr _ τ h3.1 h1.1 patch_in).2 h2)
        exact exists_agree (hB.more [x]) patch_in h1.1 hq h4
    rw [Sat, Sat]
    have e1 : ∀ {B B' : String → Prop}, SameKnown (x :: (formVars r ++ formVars q)) B B' → SameKnown (formVars r) B B' :=
      fun h => h.sub fun y hy => by simp [hy]
    have e2 : ∀ {B B' : String → Prop}, SameKnown (x :: (formVars r ++ formVars q)) B B' → SameKnown (formVars q) B B' :=
      fun h => h.sub fun y hy => by simp [hy]
    have e3 : ∀ {σ σ' : Assignment}, SameVals (x :: (formVars r ++ formVars q)) σ σ' → SameVals (formVars r) σ σ' :=
      fun h => h.sub fun y hy => by simp [hy]
    have e4 : ∀ {σ σ' : Assignment}, SameVals (x :: (formVars r ++ formVars q)) σ σ' → SameVals (formVars q) σ σ' :=
      fun h => h.sub fun y hy => by simp [hy]
    exact ⟨half hB hσ hp hp' (fun τ τ' h1 h2 h3 => satAll_own P r (e1 hB) (e3 h3) h1 h2)
        (fun τ τ' h1 h2 h3 => satAll_own P q ((e2 hB).more [x]) (e4 h3) h1 h2),
      half hB.symm hσ.symm hp' hp (fun τ τ' h1 h2 h3 => (satAll_own P r (e1 hB) (e3 h3).symm h2 h1).symm)
        (fun τ τ' h1 h2 h3 => (satAll_own P q ((e2 hB).more [x]) (e4 h3).symm h2 h1).symm)⟩
  | .count x q, B, B', σ, σ', hB, hσ, hp, hp' => by
    rw [Form.vars] at hB hσ
    have hB1 := hB.sub (V' := formVars q) fun x hx => by simp [hx]
    have hσ1 := hσ.sub (V' := formVars q) fun x hx => by simp [hx]
    rw [Sat, Sat, hσ x (by simp)]
    refine exists_congr fun k => and_congr ⟨hasCount_agree (formBinds_mem_vars q) hB1 hσ1 hp hp' fun τ τ' h1 h2 h3 => satAll_own P q hB1 h3 h1 h2,
      hasCount_agree (formBinds_mem_vars q) hB1.symm hσ1.symm hp' hp fun τ τ' h1 h2 h3 => (satAll_own P q hB1 h3.symm h2 h1).symm⟩ Iff.rfl
  | .either qs, B, B', σ, σ', hB, hσ, hp, hp' => by
    rw [Form.vars] at hB hσ
    rw [Sat, Sat]
    exact satFirst_same P qs hB hσ hp hp'
  | .equals a c, B, B', σ, σ', hB, hσ, hp, hp' => by
    rw [Form.vars] at hσ
    have ha : inst σ a = inst σ' a := inst_congr fun x hx => hσ x (argVars_mem (by simp) hx)
    have hc : inst σ c = inst σ' c := inst_congr fun x hx => hσ x (argVars_mem (by simp) hx)
    rw [Sat, Sat, ha, hc]
  | .greater a c, B, B', σ, σ', hB, hσ, hp, hp' => by
    rw [Form.vars] at hσ
    have ha : inst σ a = inst σ' a := inst_congr fun x hx => hσ x (argVars_mem (by simp) hx)
    have hc : inst σ c = inst σ' c := inst_congr fun x hx => hσ x (argVars_mem (by simp) hx)
    rw [Sat, Sat, ha, hc]
  | .less a c, B, B', σ, σ', hB, hσ, hp, hp' => by
    rw [Form.vars] at hσ
    have ha : inst σ a = inst σ' a := inst_congr fun x hx => hσ x (argVars_mem (by simp) hx)
    have hc : inst σ c = inst σ' c := inst_congr fun x hx => hσ x (argVars_mem (by simp) hx)
    rw [Sat, Sat, ha, hc]
  | .assign x v, B, B', σ, σ', hB, hσ, hp, hp' => by
    rw [Form.vars] at hσ
    have hv : inst σ v = inst σ' v := inst_congr fun x hx => hσ x (by simp [hx])
    rw [Sat, Sat, hv, hσ x (by simp)]
  | .times a c x, B, B', σ, σ', hB, hσ, hp, hp' => by
    rw [Form.vars] at hσ
    have ha : inst σ a = inst σ' a := inst_congr fun y hy => hσ y (List.mem_append.2 (.inl (argVars_mem (by simp) hy)))
    have hc : inst σ c = inst σ' c := inst_congr fun y hy => hσ y (List.mem_append.2 (.inl (argVars_mem (by simp) hy)))
    rw [Sat, Sat, ha, hc, hσ x (by simp)]
theorem satAll_own (P : Program) : ∀ (q : List Form) {B B' : String → Prop} {σ σ' : Assignment}, SameKnown (formVars q) B B' →
    SameVals (formVars q) σ σ' → (∀ x, Plain (σ x)) → (∀ x, Plain (σ' x)) → (SatAll P q B σ ↔ SatAll P q B' σ')
  | [], B, B', σ, σ', hB, hσ, hp, hp' => by simp [SatAll]
  | f :: fs, B, B', σ, σ', hB, hσ, hp, hp' => by
    rw [formVars] at hB hσ
    rw [SatAll, SatAll, sat_same P f (hB.sub fun x hx => by simp [hx]) (hσ.sub fun x hx => by simp [hx]) hp hp',
      satAll_own P fs ((hB.sub fun x hx => by simp [hx]).more f.binds) (hσ.sub fun x hx => by simp [hx]) hp hp']
theorem satFirst_same (P : Program) : ∀ (qs : List (List Form)) {B B' : String → Prop} {σ σ' : Assignment}, SameKnown (altVars qs) B B' →
    SameVals (altVars qs) σ σ' → (∀ x, Plain (σ x)) → (∀ x, Plain (σ' x)) → (SatFirst P qs B σ ↔ SatFirst P qs B' σ')
  | [], B, B', σ, σ', hB, hσ, hp, hp' => by simp [SatFirst]
  | q :: qs, B, B', σ, σ', hB, hσ, hp, hp' => by
    rw [altVars] at hB hσ
    have hB1 := hB.sub (V' := formVars q) fun x hx => by simp [hx]
    have hσ1 := hσ.sub (V' := formVars q) fun x hx => by simp [hx]
    rw [SatFirst, SatFirst, satAll_own P q hB1 hσ1 hp hp',
      satFirst_same P qs (hB.sub fun x hx => by simp [hx]) (hσ.sub fun x hx => by simp [hx]) hp hp']
    refine or_congr Iff.rfl (and_congr (not_congr ⟨exists_agree hB1 hσ1 hp' fun τ τ' h1 h2 h3 => satAll_own P q hB1 h3 h1 h2,
      exists_agree hB1.symm hσ1.symm hp fun τ τ' h1 h2 h3 => (satAll_own P q hB1 h3.symm h2 h1).symm⟩) Iff.rfl)
end

/-! ## Conditions on the parts -/

theorem ordered_same {q : List Form} {B B' : String → Prop} (hB : SameKnown (formVars q) B B') (h : Ordered q B) : Ordered q B' := by
  intro l1 f l2 e hf x hx
  have hq : x ∈ formVars q := by rw [e]; exact mem_formVars.2 ⟨f, by simp, hx⟩
  obtain ⟨h1, h2⟩ := h l1 f l2 e hf x hx
  exact ⟨fun h' => (h1 h').imp_left (hB x hq).1, fun h' h'' => (hB x hq).1 (h2 h' h'')⟩

mutual
theorem tidy_same : ∀ (f : Form) {B B' : String → Prop}, SameKnown f.vars B B' → f.Tidy B → f.Tidy B'
  | .atom _ _, _, _, _, h => by simp [Form.Tidy]
  | .neg q, _, _, hB, h => by
    rw [Form.vars] at hB
    rw [Form.Tidy] at h ⊢
    exact ⟨ordered_same hB h.1, formsTidy_same q hB h.2⟩
  | .thereIsNo q, _, _, hB, h => by
    rw [Form.vars] at hB
    rw [Form.Tidy] at h ⊢
    exact ⟨ordered_same hB h.1, formsTidy_same q hB h.2⟩
  | .thereIs q, _, _, hB, h => by
    rw [Form.vars] at hB
    rw [Form.Tidy] at h ⊢
    exact ⟨ordered_same hB h.1, formsTidy_same q hB h.2⟩
  | .exactly q _, _, _, hB, h => by
    rw [Form.vars] at hB
    rw [Form.Tidy] at h ⊢
    have hB := hB.sub (V' := formVars q) fun x hx => by simp [hx]
    exact ⟨ordered_same hB h.1, formsTidy_same q hB h.2⟩
  | .moreThan q _, _, _, hB, h => by
    rw [Form.vars] at hB
    rw [Form.Tidy] at h ⊢
    have hB := hB.sub (V' := formVars q) fun x hx => by simp [hx]
    exact ⟨ordered_same hB h.1, formsTidy_same q hB h.2⟩
  | .fewerThan q _, _, _, hB, h => by
    rw [Form.vars] at hB
    rw [Form.Tidy] at h ⊢
    have hB := hB.sub (V' := formVars q) fun x hx => by simp [hx]
    exact ⟨ordered_same hB h.1, formsTidy_same q hB h.2⟩
  | .all x r q, _, _, hB, h => by
    rw [Form.vars] at hB
    rw [Form.Tidy] at h ⊢
    have hB1 := hB.sub (V' := formVars r) fun x hx => by simp [hx]
    have hB2 := (hB.sub (V' := formVars q) fun x hx => by simp [hx]).more [x]
    exact ⟨ordered_same hB1 h.1, formsTidy_same r hB1 h.2.1, ordered_same hB2 h.2.2.1, formsTidy_same q hB2 h.2.2.2⟩
  | .count x q, _, _, hB, h => by
    rw [Form.vars] at hB
    rw [Form.Tidy] at h ⊢
    have hB := hB.sub (V' := formVars q) fun x hx => by simp [hx]
    exact ⟨ordered_same hB h.1, formsTidy_same q hB h.2⟩
  | .either _, _, _, _, h => by simp [Form.Tidy]
  | .equals _ _, _, _, _, h => by simp [Form.Tidy]
  | .greater _ _, _, _, _, h => by simp [Form.Tidy]
  | .less _ _, _, _, _, h => by simp [Form.Tidy]
  | .assign _ _, _, _, _, h => by simp [Form.Tidy]
  | .times _ _ _, _, _, _, h => by simp [Form.Tidy]
theorem formsTidy_same : ∀ (q : List Form) {B B' : String → Prop}, SameKnown (formVars q) B B' → FormsTidy q B → FormsTidy q B'
  | [], _, _, _, _ => by simp [FormsTidy]
  | f :: fs, _, _, hB, h => by
    rw [formVars] at hB
    rw [FormsTidy] at h ⊢
    exact ⟨tidy_same f (hB.sub fun x hx => by simp [hx]) h.1, formsTidy_same fs ((hB.sub fun x hx => by simp [hx]).more _) h.2⟩
end

mutual
theorem ok_same (ar : String → Option Nat) : ∀ (f : Form) {B B' : String → Prop}, SameKnown f.vars B B' → f.Ok ar B → f.Ok ar B'
  | .atom _ _, _, _, _, h => by simpa [Form.Ok] using h
  | .neg q, _, _, hB, h => by
    rw [Form.vars] at hB
    rw [Form.Ok] at h ⊢
    exact formsOk_same ar q hB h
  | .thereIsNo q, _, _, hB, h => by
    rw [Form.vars] at hB
    rw [Form.Ok] at h ⊢
    exact formsOk_same ar q hB h
  | .thereIs q, _, _, hB, h => by
    rw [Form.vars] at hB
    rw [Form.Ok] at h ⊢
    exact formsOk_same ar q hB h
  | .exactly q n, _, _, hB, h => by
    rw [Form.vars] at hB
    rw [Form.Ok] at h ⊢
    exact ⟨formsOk_same ar q (hB.sub fun x hx => by simp [hx]) h.1, (given_known (hB.sub fun x hx => by simp [hx])).1 h.2⟩
  | .moreThan q n, _, _, hB, h => by
    rw [Form.vars] at hB
    rw [Form.Ok] at h ⊢
    exact ⟨formsOk_same ar q (hB.sub fun x hx => by simp [hx]) h.1, (given_known (hB.sub fun x hx => by simp [hx])).1 h.2⟩
  | .fewerThan q n, _, _, hB, h => by
    rw [Form.vars] at hB
    rw [Form.Ok] at h ⊢
    exact ⟨formsOk_same ar q (hB.sub fun x hx => by simp [hx]) h.1, (given_known (hB.sub fun x hx => by simp [hx])).1 h.2⟩
  | .all x r q, _, _, hB, h => by
    rw [Form.vars] at hB
    rw [Form.Ok] at h ⊢
    exact ⟨fun h' => h.1 ((hB x (by simp)).2 h'), h.2.1, formsOk_same ar r (hB.sub fun x hx => by simp [hx]) h.2.2.1,
      formsOk_same ar q ((hB.sub fun x hx => by simp [hx]).more [x]) h.2.2.2⟩
  | .count x q, _, _, hB, h => by
    rw [Form.vars] at hB
    rw [Form.Ok] at h ⊢
    exact ⟨fun h' => h.1 ((hB x (by simp)).2 h'), formsOk_same ar q (hB.sub fun x hx => by simp [hx]) h.2⟩
  | .either qs, B, B', hB, h => by
    rw [Form.vars] at hB
    rw [Form.Ok] at h ⊢
    refine ⟨altsOk_same ar qs hB h.1, fun q hq x => ?_⟩
    have h2 := h.2 q hq x
    by_cases hx : x ∈ altVars qs
    · simp only [Known.more] at h2 ⊢
      rw [← hB x hx]; exact h2
    · have e1 : x ∉ altBinds qs := fun h' => hx (altBinds_mem_vars qs x h')
      have e2 : x ∉ formBinds q := fun h' => hx (mem_altVars.2 ⟨q, hq, formBinds_mem_vars q x h'⟩)
      simp [Known.more, e1, e2]
  | .equals _ _, _, _, _, h => by simpa [Form.Ok] using h
  | .greater _ _, _, _, _, h => by simpa [Form.Ok] using h
  | .less _ _, _, _, _, h => by simpa [Form.Ok] using h
  | .assign x v, _, _, hB, h => by
    rw [Form.vars] at hB
    rw [Form.Ok] at h ⊢
    exact ⟨fun h' => h.1 ((hB x (by simp)).2 h'), (given_known (hB.sub fun x hx => by simp [hx])).1 h.2⟩
  | .times a c x, _, _, hB, h => by
    rw [Form.vars] at hB
    rw [Form.Ok] at h ⊢
    exact ⟨fun h' => h.1 ((hB x (by simp)).2 h'), (given_known (hB.sub fun y hy => List.mem_append.2 (.inl (argVars_mem (by simp) hy)))).1 h.2.1,
      (given_known (hB.sub fun y hy => List.mem_append.2 (.inl (argVars_mem (by simp) hy)))).1 h.2.2⟩
theorem formsOk_same (ar : String → Option Nat) : ∀ (q : List Form) {B B' : String → Prop}, SameKnown (formVars q) B B' →
    FormsOk ar q B → FormsOk ar q B'
  | [], _, _, _, _ => by simp [FormsOk]
  | f :: fs, _, _, hB, h => by
    rw [formVars] at hB
    rw [FormsOk] at h ⊢
    exact ⟨ok_same ar f (hB.sub fun x hx => by simp [hx]) h.1, formsOk_same ar fs ((hB.sub fun x hx => by simp [hx]).more _) h.2⟩
theorem altsOk_same (ar : String → Option Nat) : ∀ (qs : List (List Form)) {B B' : String → Prop}, SameKnown (altVars qs) B B' →
    AltsOk ar qs B → AltsOk ar qs B'
  | [], _, _, _, _ => by simp [AltsOk]
  | q :: qs, _, _, hB, h => by
    rw [altVars] at hB
    rw [AltsOk] at h ⊢
    exact ⟨formsOk_same ar q (hB.sub fun x hx => by simp [hx]) h.1, altsOk_same ar qs (hB.sub fun x hx => by simp [hx]) h.2⟩
end

/-! ## Changing places -/

/-- Each part meets a condition, knowing the variables of those before it. -/
def Each (R : Form → (String → Prop) → Prop) : List Form → (String → Prop) → Prop
  | [], _ => True
  | f :: fs, B => R f B ∧ Each R fs (Known.more B f.binds)

theorem satAll_each (P : Program) (q : List Form) (B : String → Prop) (σ : Assignment) :
    SatAll P q B σ ↔ Each (fun f B => Sat P f B σ) q B := by
  induction q generalizing B with
  | nil => simp [SatAll, Each]
  | cons f fs ih => rw [SatAll, Each, ih]

theorem formsOk_each (ar : String → Option Nat) (q : List Form) (B : String → Prop) : FormsOk ar q B ↔ Each (Form.Ok ar) q B := by
  induction q generalizing B with
  | nil => simp [FormsOk, Each]
  | cons f fs ih => rw [FormsOk, Each, ih]

theorem formsTidy_each (q : List Form) (B : String → Prop) : FormsTidy q B ↔ Each Form.Tidy q B := by
  induction q generalizing B with
  | nil => simp [FormsTidy, Each]
  | cons f fs ih => rw [FormsTidy, Each, ih]

theorem formVars_append (q q' : List Form) : formVars (q ++ q') = formVars q ++ formVars q' := by
  induction q with
  | nil => simp [formVars]
  | cons f fs ih => simp [formVars, ih]

theorem more_more (B : String → Prop) (xs ys : List String) : Known.more (Known.more B xs) ys = Known.more B (xs ++ ys) := by
  funext x
  simp [Known.more, or_assoc]

theorem each_iff {R : Form → (String → Prop) → Prop} {q : List Form} {B : String → Prop} :
    Each R q B ↔ ∀ l1 f l2, q = l1 ++ f :: l2 → R f (Known.more B (formBinds l1)) := by
  induction q generalizing B with
  | nil => simp [Each]
  | cons g gs ih =>
    rw [Each, ih]
    constructor
    · rintro ⟨h1, h2⟩ l1 f l2 e
      cases l1 with
      | nil =>
        simp only [List.nil_append, List.cons.injEq] at e
        obtain ⟨rfl, rfl⟩ := e
        rw [formBinds, more_nil]; exact h1
      | cons g' l1 =>
        simp only [List.cons_append, List.cons.injEq] at e
        obtain ⟨rfl, rfl⟩ := e
        rw [formBinds, ← more_more]; exact h2 l1 f l2 rfl
    · intro h
      refine ⟨by simpa [formBinds, more_nil] using h [] g gs rfl, fun l1 f l2 e => ?_⟩
      have := h (g :: l1) f l2 (by rw [e]; rfl)
      rwa [formBinds, ← more_more] at this

/-- The condition depends on which of the part's own variables are known; for facts not even on that. -/
structure Own (R : Form → (String → Prop) → Prop) : Prop where
  same : ∀ {f B B'}, SameKnown f.vars B B' → R f B → R f B'
  fact : ∀ {f B B'}, f.isFact = true → R f B → R f B'

theorem own_sat (P : Program) {σ : Assignment} (hp : ∀ x, Plain (σ x)) : Own fun f B => Sat P f B σ := by
  refine ⟨fun {f _ _} h h' => (sat_same P f h (fun _ _ => rfl) hp hp).1 h', fun {f _ _} h h' => ?_⟩
  cases f <;> simp [Form.isFact] at h <;> simpa [Sat] using h'

theorem own_ok (ar : String → Option Nat) : Own (Form.Ok ar) := by
  refine ⟨fun {f _ _} h h' => ok_same ar f h h', fun {f _ _} h h' => ?_⟩
  cases f <;> simp [Form.isFact] at h <;> simpa [Form.Ok] using h'

theorem own_tidy : Own Form.Tidy := by
  refine ⟨fun {f _ _} h h' => tidy_same f h h', fun {f _ _} h h' => ?_⟩
  cases f <;> simp [Form.isFact] at h <;> simp [Form.Tidy]

/-- In an ordered query, each part may as well know the variables of all others. -/
theorem each_canon {R : Form → (String → Prop) → Prop} (hR : Own R) {q : List Form} {B : String → Prop} (ho : Ordered q B) :
    Each R q B ↔ ∀ l1 f l2, q = l1 ++ f :: l2 → R f (Known.more B (formBinds (l1 ++ l2))) := by
  rw [each_iff]
  refine forall_congr' fun l1 => forall_congr' fun f => forall_congr' fun l2 => forall_congr' fun e => ?_
  cases hf : f.isFact with
  | true => exact ⟨hR.fact hf, hR.fact hf⟩
  | false =>
    have hs : SameKnown f.vars (Known.more B (formBinds l1)) (Known.more B (formBinds (l1 ++ l2))) := by
      intro x hx
      simp only [Known.more, formBinds_append, List.mem_append]
      constructor
      · exact fun h => h.imp_right .inl
      · rintro (h | h | h)
        · exact .inl h
        · exact .inr h
        · rcases (ho l1 f l2 e hf x hx).1 (by rw [formVars_append]; simp [formBinds_mem_vars l2 x h]) with h1 | h1 | h1
          · exact .inl h1
          · exact .inr h1
          · exact absurd h h1.2
    exact ⟨hR.same hs, hR.same hs.symm⟩

theorem formBinds_perm {q q' : List Form} (h : q.Perm q') (x : String) : x ∈ formBinds q ↔ x ∈ formBinds q' := by
  simp only [mem_formBinds, h.mem_iff]

theorem formVars_perm {q q' : List Form} (h : q.Perm q') (x : String) : x ∈ formVars q ↔ x ∈ formVars q' := by
  simp only [mem_formVars, h.mem_iff]

/-- The order of the parts does not matter, if both orders are proper. -/
theorem each_perm {R : Form → (String → Prop) → Prop} (hR : Own R) {q q' : List Form} {B : String → Prop} (hp : q.Perm q')
    (ho : Ordered q B) (ho' : Ordered q' B) (h : Each R q B) : Each R q' B := by
  rw [each_canon hR ho'] 
  rw [each_canon hR ho] at h
  intro l1 f l2 e
  obtain ⟨m1, m2, rfl⟩ := List.append_of_mem (hp.symm.mem_iff.1 (show f ∈ q' by rw [e]; simp))
  have hp' : (m1 ++ m2).Perm (l1 ++ l2) := by
    have h1 : (f :: (m1 ++ m2)).Perm (f :: (l1 ++ l2)) := List.perm_middle.symm.trans ((e ▸ hp).trans List.perm_middle)
    exact List.Perm.cons_inv h1
  refine hR.same (fun x _ => ?_) (h m1 f m2 rfl)
  exact or_congr Iff.rfl (formBinds_perm hp' x)

end Verif
