import Verif.RuleForms
import Verif.FirstOrderMain

/-!
# Rules whose bodies contain negation, quantifiers, numbers and alternatives: lemmas
-/

namespace Verif

/-! ## Variables -/

theorem mem_argVars {args : List Value} {x : String} : x ∈ argVars args ↔ .var x ∈ args := by
  simp only [argVars, List.mem_filterMap]
  constructor
  · rintro ⟨v, hv, h⟩
    cases v <;> simp at h
    subst h; exact hv
  · intro h; exact ⟨.var x, h, rfl⟩

theorem inst_same {σ σ' : Assignment} {v : Value} (h : ∀ x, v = .var x → σ x = σ' x) : inst σ v = inst σ' v := by
  cases v <;> first | rfl | exact h _ rfl

mutual
theorem binds_vars : ∀ (f : Form), ∀ x ∈ f.binds, x ∈ f.vars
  | .atom _ _, x, h => by simpa [Form.binds, Form.vars] using h
  | .neg _, x, h => by simp [Form.binds] at h
  | .thereIsNo _, x, h => by simp [Form.binds] at h
  | .thereIs _, x, h => by simp [Form.binds] at h
  | .exactly _ _, x, h => by simp [Form.binds] at h
  | .moreThan _ _, x, h => by simp [Form.binds] at h
  | .fewerThan _ _, x, h => by simp [Form.binds] at h
  | .all y _ _, x, h => by
    simp only [Form.binds, List.mem_singleton] at h
    simp [Form.vars, h]
  | .count y _, x, h => by
    simp only [Form.binds, List.mem_singleton] at h
    simp [Form.vars, h]
  | .either qs, x, h => by
    simp only [Form.binds] at h
    simpa only [Form.vars] using altBinds_vars qs x h
  | .equals _ _, x, h => by simpa [Form.binds, Form.vars] using h
  | .greater _ _, x, h => by simp [Form.binds] at h
  | .less _ _, x, h => by simp [Form.binds] at h
  | .assign y _, x, h => by
    simp only [Form.binds, List.mem_singleton] at h
    simp [Form.vars, h]
  | .times _ _ y, x, h => by
    simp only [Form.binds, List.mem_singleton] at h
    simp [Form.vars, h]
theorem formBinds_vars : ∀ (q : List Form), ∀ x ∈ formBinds q, x ∈ formVars q
  | [], x, h => by simp [formBinds] at h
  | f :: fs, x, h => by
    simp only [formBinds, List.mem_append] at h
    simp only [formVars, List.mem_append]
    exact h.imp (binds_vars f x) (formBinds_vars fs x)
theorem altBinds_vars : ∀ (qs : List (List Form)), ∀ x ∈ altBinds qs, x ∈ altVars qs
  | [], x, h => by simp [altBinds] at h
  | q :: qs, x, h => by
    simp only [altBinds] at h
    simp only [altVars, List.mem_append]
    exact .inl (formBinds_vars q x h)
end

theorem inner_vars (f : Form) : ∀ x ∈ f.inner, x ∈ f.vars := by
  intro x h
  cases f <;> simp only [Form.inner, List.not_mem_nil] at h <;> simp only [Form.vars, List.mem_append, List.mem_cons] <;> simp_all

theorem altVars_mem {qs : List (List Form)} {q : List Form} (h : q ∈ qs) : ∀ x ∈ formVars q, x ∈ altVars qs := by
  induction qs with
  | nil => simp at h
  | cons q' qs ih =>
    intro x hx
    simp only [altVars, List.mem_append]
    rcases List.mem_cons.1 h with rfl | h
    · exact .inl hx
    · exact .inr (ih h x hx)

/-! ## What a query says depends on its variables only -/

/-- The values of `τ` on `V`, those of `σ` elsewhere. -/
def onVars (V : List String) (σ τ : Assignment) : Assignment := fun x => if x ∈ V then τ x else σ x

theorem onVars_plain {V : List String} {σ τ : Assignment} (hσ : ∀ x, Plain (σ x)) (hτ : ∀ x, Plain (τ x)) (x : String) : Plain (onVars V σ τ x) := by
  simp only [onVars]
  split
  · exact hτ x
  · exact hσ x

theorem onVars_mem {V : List String} {σ τ : Assignment} {x : String} (h : x ∈ V) : onVars V σ τ x = τ x := by simp [onVars, h]

theorem agreeOn_move {V : List String} {B B' : String → Prop} {σ σ' τ : Assignment} (hB : ∀ x ∈ V, B x ↔ B' x) (hp' : ∀ x, Plain (σ' x))
    (hv : ∀ x ∈ V, σ x = σ' x) (h : AgreeOn B σ τ) : AgreeOn B' σ' (onVars V σ' τ) := by
  refine ⟨onVars_plain hp' h.1, fun x hx => ?_⟩
  simp only [onVars]
  split
  · rename_i hm
    rw [h.2 x ((hB x hm).2 hx), hv x hm]
  · rfl

theorem hasCount_move {V : List String} {binds : List String} {B B' : String → Prop} {σ σ' : Assignment} {S S' : Assignment → Prop} {k : Nat}
    (hb : ∀ x ∈ binds, x ∈ V) (hB : ∀ x ∈ V, B x ↔ B' x) (hp : ∀ x, Plain (σ x)) (hp' : ∀ x, Plain (σ' x)) (hv : ∀ x ∈ V, σ x = σ' x)
    (hS : ∀ τ τ' : Assignment, (∀ x, Plain (τ x)) → (∀ x, Plain (τ' x)) → (∀ x ∈ V, τ x = τ' x) → (S τ ↔ S' τ'))
    (h : HasCount (Known.more B binds) (fun τ => AgreeOn B σ τ ∧ S τ) k) : HasCount (Known.more B' binds) (fun τ => AgreeOn B' σ' τ ∧ S' τ) k := by
  obtain ⟨L, hl, h1, h2, h3⟩ := h
  refine ⟨L.map (onVars V σ'), by simpa using hl, ?_, ?_, ?_⟩
  · intro τ' hτ'
    obtain ⟨τ, hτ, rfl⟩ := List.mem_map.1 hτ'
    obtain ⟨ha, hs⟩ := h1 τ hτ
    exact ⟨agreeOn_move hB hp' hv ha, (hS τ _ ha.1 (onVars_plain hp' ha.1) fun x hx => (onVars_mem hx).symm).1 hs⟩
  · rw [List.pairwise_map]
    refine List.Pairwise.imp_of_mem ?_ h2
    rintro τ τ' hτ hτ' ⟨x, hx, hne⟩
    rcases hx with hx | hx
    · exact absurd (((h1 τ hτ).1.2 x hx).trans ((h1 τ' hτ').1.2 x hx).symm) hne
    · exact ⟨x, .inr hx, by rw [onVars_mem (hb x hx), onVars_mem (hb x hx)]; exact hne⟩
  · rintro τ' ⟨ha, hs⟩
    have ha2 : AgreeOn B σ (onVars V σ τ') := agreeOn_move (fun x hx => (hB x hx).symm) hp (fun x hx => (hv x hx).symm) ha
    obtain ⟨τ0, h0, he⟩ := h3 (onVars V σ τ') ⟨ha2, (hS _ τ' ha2.1 ha.1 fun x hx => onVars_mem hx).2 hs⟩
    refine ⟨_, List.mem_map.2 ⟨τ0, h0, rfl⟩, fun x hx => ?_⟩
    rcases hx with hx | hx
    · rw [ha.2 x hx, (agreeOn_move hB hp' hv (h1 τ0 h0).1).2 x hx]
    · rw [onVars_mem (hb x hx), ← he x (.inr hx), onVars_mem (hb x hx)]

theorem exists_move {V : List String} {B B' : String → Prop} {σ σ' : Assignment} {S S' : Assignment → Prop}
    (hB : ∀ x ∈ V, B x ↔ B' x) (hp' : ∀ x, Plain (σ' x)) (hv : ∀ x ∈ V, σ x = σ' x)
    (hS : ∀ τ τ' : Assignment, (∀ x, Plain (τ x)) → (∀ x, Plain (τ' x)) → (∀ x ∈ V, τ x = τ' x) → (S τ ↔ S' τ'))
    (h : ∃ τ, AgreeOn B σ τ ∧ S τ) : ∃ τ, AgreeOn B' σ' τ ∧ S' τ := by
  obtain ⟨τ, ha, hs⟩ := h
  exact ⟨_, agreeOn_move hB hp' hv ha, (hS τ _ ha.1 (onVars_plain hp' ha.1) fun x hx => (onVars_mem hx).symm).1 hs⟩

theorem exists_iff {V : List String} {B B' : String → Prop} {σ σ' : Assignment} {S S' : Assignment → Prop}
    (hB : ∀ x ∈ V, B x ↔ B' x) (hp : ∀ x, Plain (σ x)) (hp' : ∀ x, Plain (σ' x)) (hv : ∀ x ∈ V, σ x = σ' x)
    (hS : ∀ τ τ' : Assignment, (∀ x, Plain (τ x)) → (∀ x, Plain (τ' x)) → (∀ x ∈ V, τ x = τ' x) → (S τ ↔ S' τ')) :
    (∃ τ, AgreeOn B σ τ ∧ S τ) ↔ ∃ τ, AgreeOn B' σ' τ ∧ S' τ :=
  ⟨exists_move hB hp' hv hS, exists_move (fun x hx => (hB x hx).symm) hp (fun x hx => (hv x hx).symm)
    fun τ τ' h1 h2 h3 => (hS τ' τ h2 h1 fun x hx => (h3 x hx).symm).symm⟩

theorem hasCount_iff {V : List String} {binds : List String} {B B' : String → Prop} {σ σ' : Assignment} {S S' : Assignment → Prop} {k : Nat}
    (hb : ∀ x ∈ binds, x ∈ V) (hB : ∀ x ∈ V, B x ↔ B' x) (hp : ∀ x, Plain (σ x)) (hp' : ∀ x, Plain (σ' x)) (hv : ∀ x ∈ V, σ x = σ' x)
    (hS : ∀ τ τ' : Assignment, (∀ x, Plain (τ x)) → (∀ x, Plain (τ' x)) → (∀ x ∈ V, τ x = τ' x) → (S τ ↔ S' τ')) :
    HasCount (Known.more B binds) (fun τ => AgreeOn B σ τ ∧ S τ) k ↔ HasCount (Known.more B' binds) (fun τ => AgreeOn B' σ' τ ∧ S' τ) k :=
  ⟨hasCount_move hb hB hp hp' hv hS, hasCount_move hb (fun x hx => (hB x hx).symm) hp' hp (fun x hx => (hv x hx).symm)
    fun τ τ' h1 h2 h3 => (hS τ' τ h2 h1 fun x hx => (h3 x hx).symm).symm⟩

theorem more_iff {V : List String} {B B' : String → Prop} (hB : ∀ x ∈ V, B x ↔ B' x) (xs : List String) :
    ∀ x ∈ V, Known.more B xs x ↔ Known.more B' xs x := fun x hx => or_congr (hB x hx) Iff.rfl

theorem all_move {P : Program} {x : String} {r q : List Form} {B B' : String → Prop} {σ σ' : Assignment}
    (hB : ∀ y ∈ x :: (formVars r ++ formVars q), B y ↔ B' y) (hp : ∀ x, Plain (σ x)) (hp' : ∀ x, Plain (σ' x))
    (hv : ∀ y ∈ x :: (formVars r ++ formVars q), σ y = σ' y)
    (hr : ∀ τ τ' : Assignment, (∀ x, Plain (τ x)) → (∀ x, Plain (τ' x)) → (∀ x ∈ formVars r, τ x = τ' x) → (SatAll P r B τ ↔ SatAll P r B' τ'))
    (hq : ∀ τ τ' : Assignment, (∀ x, Plain (τ x)) → (∀ x, Plain (τ' x)) → (∀ x ∈ formVars q, τ x = τ' x) →
      (SatAll P q (Known.more B [x]) τ ↔ SatAll P q (Known.more B' [x]) τ'))
    (h : Sat P (.all x r q) B σ) : Sat P (.all x r q) B' σ' := by
  simp only [Sat] at h ⊢
  obtain ⟨h1, h2⟩ := h
  refine ⟨?_, ?_⟩
  · obtain ⟨τ, ha, hs, he⟩ := h1
    refine ⟨_, agreeOn_move hB hp' hv ha, (hr τ _ ha.1 (onVars_plain hp' ha.1) fun y hy => (onVars_mem (by simp [hy])).symm).1 hs, ?_⟩
    rw [onVars_mem (by simp), he, hv x (by simp)]
  · intro τ' ha' hs'
    have ha : AgreeOn B σ (onVars (x :: (formVars r ++ formVars q)) σ τ') := agreeOn_move (fun y hy => (hB y hy).symm) hp (fun y hy => (hv y hy).symm) ha'
    obtain ⟨t, ht, hst⟩ := h2 _ ha ((hr _ τ' ha.1 ha'.1 fun y hy => onVars_mem (by simp [hy])).2 hs')
    refine ⟨_, agreeOn_move (V := x :: (formVars r ++ formVars q)) (more_iff hB [x]) ha'.1 (fun y hy => onVars_mem hy) ht, ?_⟩
    exact (hq t _ ht.1 (onVars_plain ha'.1 ht.1) fun y hy => (onVars_mem (by simp [hy])).symm).1 hst

mutual
theorem sat_congr (P : Program) : ∀ (f : Form) {B B' : String → Prop} {σ σ' : Assignment}, (∀ x ∈ f.inner, B x ↔ B' x) → (∀ x, Plain (σ x)) →
    (∀ x, Plain (σ' x)) → (∀ x ∈ f.vars, σ x = σ' x) → (Sat P f B σ ↔ Sat P f B' σ')
  | .atom p args, B, B', σ, σ', hB, hp, hp', hv => by
    have : args.map (inst σ) = args.map (inst σ') := List.map_congr_left fun a ha => inst_same fun x e => hv x (by
      simp only [Form.vars]; rw [mem_argVars]; exact e ▸ ha)
    simp only [Sat, this]
  | .neg q, B, B', σ, σ', hB, hp, hp', hv => by
    simp only [Sat]
    rw [exists_iff hB hp hp' hv fun τ τ' h1 h2 h3 => satAll_congr P q hB h1 h2 h3]
  | .thereIsNo q, B, B', σ, σ', hB, hp, hp', hv => by
    simp only [Sat]
    rw [exists_iff hB hp hp' hv fun τ τ' h1 h2 h3 => satAll_congr P q hB h1 h2 h3]
  | .thereIs q, B, B', σ, σ', hB, hp, hp', hv => by
    simp only [Sat]
    exact exists_iff hB hp hp' hv fun τ τ' h1 h2 h3 => satAll_congr P q hB h1 h2 h3
  | .exactly q n, B, B', σ, σ', hB, hp, hp', hv => by
    have hn : inst σ n = inst σ' n := inst_same fun x e => hv x (by simp [Form.vars, mem_argVars, e])
    simp only [Sat, hn]
    exact exists_congr fun k => and_congr_left fun _ => hasCount_iff (formBinds_vars q) hB hp hp' (fun x hx => hv x (by simp [Form.vars, hx]))
      fun τ τ' h1 h2 h3 => satAll_congr P q hB h1 h2 h3
  | .moreThan q n, B, B', σ, σ', hB, hp, hp', hv => by
    have hn : inst σ n = inst σ' n := inst_same fun x e => hv x (by simp [Form.vars, mem_argVars, e])
    simp only [Sat, hn]
    exact exists_congr fun k => exists_congr fun r => and_congr_left fun _ => hasCount_iff (formBinds_vars q) hB hp hp'
      (fun x hx => hv x (by simp [Form.vars, hx])) fun τ τ' h1 h2 h3 => satAll_congr P q hB h1 h2 h3
  | .fewerThan q n, B, B', σ, σ', hB, hp, hp', hv => by
    have hn : inst σ n = inst σ' n := inst_same fun x e => hv x (by simp [Form.vars, mem_argVars, e])
    simp only [Sat, hn]
    exact exists_congr fun k => exists_congr fun r => and_congr_left fun _ => hasCount_iff (formBinds_vars q) hB hp hp'
      (fun x hx => hv x (by simp [Form.vars, hx])) fun τ τ' h1 h2 h3 => satAll_congr P q hB h1 h2 h3
  | .all x r q, B, B', σ, σ', hB, hp, hp', hv => by
    simp only [Form.inner] at hB
    simp only [Form.vars] at hv
    refine ⟨all_move hB hp hp' hv ?_ ?_, all_move (fun y hy => (hB y hy).symm) hp' hp (fun y hy => (hv y hy).symm) ?_ ?_⟩
    · intro τ τ' h1 h2 h3; exact satAll_congr P r (fun y hy => hB y (by simp [hy])) h1 h2 h3
    · intro τ τ' h1 h2 h3; exact satAll_congr P q (more_iff (fun y hy => hB y (by simp [hy])) [x]) h1 h2 h3
    · intro τ τ' h1 h2 h3; exact (satAll_congr P r (fun y hy => hB y (by simp [hy])) h2 h1 (fun y hy => (h3 y hy).symm)).symm
    · intro τ τ' h1 h2 h3; exact (satAll_congr P q (more_iff (fun y hy => hB y (by simp [hy])) [x]) h2 h1 (fun y hy => (h3 y hy).symm)).symm
  | .count x q, B, B', σ, σ', hB, hp, hp', hv => by
    have hx : σ x = σ' x := hv x (by simp [Form.vars])
    simp only [Sat, hx]
    exact exists_congr fun k => and_congr_left fun _ => hasCount_iff (formBinds_vars q) hB hp hp' (fun x hx => hv x (by simp [Form.vars, hx]))
      fun τ τ' h1 h2 h3 => satAll_congr P q hB h1 h2 h3
  | .either qs, B, B', σ, σ', hB, hp, hp', hv => by
    simp only [Sat]
    exact satFirst_congr P qs hB hp hp' hv
  | .equals a c, B, B', σ, σ', hB, hp, hp', hv => by
    have ha : inst σ a = inst σ' a := inst_same fun x e => hv x (by simp [Form.vars, mem_argVars, e])
    have hc : inst σ c = inst σ' c := inst_same fun x e => hv x (by simp [Form.vars, mem_argVars, e])
    simp only [Sat, ha, hc]
  | .greater a c, B, B', σ, σ', hB, hp, hp', hv => by
    have ha : inst σ a = inst σ' a := inst_same fun x e => hv x (by simp [Form.vars, mem_argVars, e])
    have hc : inst σ c = inst σ' c := inst_same fun x e => hv x (by simp [Form.vars, mem_argVars, e])
    simp only [Sat, ha, hc]
  | .less a c, B, B', σ, σ', hB, hp, hp', hv => by
    have ha : inst σ a = inst σ' a := inst_same fun x e => hv x (by simp [Form.vars, mem_argVars, e])
    have hc : inst σ c = inst σ' c := inst_same fun x e => hv x (by simp [Form.vars, mem_argVars, e])
    simp only [Sat, ha, hc]
  | .assign x v, B, B', σ, σ', hB, hp, hp', hv => by
    have hx : σ x = σ' x := hv x (by simp [Form.vars])
    have ha : inst σ v = inst σ' v := inst_same fun x e => hv x (by simp [Form.vars, mem_argVars, e])
    simp only [Sat, hx, ha]
  | .times a c x, B, B', σ, σ', hB, hp, hp', hv => by
    have hx : σ x = σ' x := hv x (by simp [Form.vars])
    have ha : inst σ a = inst σ' a := inst_same fun x e => hv x (by simp [Form.vars, mem_argVars, e])
    have hc : inst σ c = inst σ' c := inst_same fun x e => hv x (by simp [Form.vars, mem_argVars, e])
    simp only [Sat, hx, ha, hc]
theorem satAll_congr (P : Program) : ∀ (q : List Form) {B B' : String → Prop} {σ σ' : Assignment}, (∀ x ∈ formVars q, B x ↔ B' x) → (∀ x, Plain (σ x)) →
    (∀ x, Plain (σ' x)) → (∀ x ∈ formVars q, σ x = σ' x) → (SatAll P q B σ ↔ SatAll P q B' σ')
  | [], B, B', σ, σ', hB, hp, hp', hv => by simp only [SatAll]
  | f :: fs, B, B', σ, σ', hB, hp, hp', hv => by
    simp only [SatAll]
    exact and_congr (sat_congr P f (fun x hx => hB x (by simp [formVars, inner_vars f x hx])) hp hp' fun x hx => hv x (by simp [formVars, hx]))
      (satAll_congr P fs (more_iff (fun x hx => hB x (by simp [formVars, hx])) f.binds) hp hp' fun x hx => hv x (by simp [formVars, hx]))
theorem satFirst_congr (P : Program) : ∀ (qs : List (List Form)) {B B' : String → Prop} {σ σ' : Assignment}, (∀ x ∈ altVars qs, B x ↔ B' x) → (∀ x, Plain (σ x)) →
    (∀ x, Plain (σ' x)) → (∀ x ∈ altVars qs, σ x = σ' x) → (SatFirst P qs B σ ↔ SatFirst P qs B' σ')
  | [], B, B', σ, σ', hB, hp, hp', hv => by simp only [SatFirst]
  | q :: qs, B, B', σ, σ', hB, hp, hp', hv => by
    have hBq : ∀ x ∈ formVars q, B x ↔ B' x := fun x hx => hB x (by simp [altVars, hx])
    have hvq : ∀ x ∈ formVars q, σ x = σ' x := fun x hx => hv x (by simp [altVars, hx])
    simp only [SatFirst]
    rw [satAll_congr P q hBq hp hp' hvq, exists_iff hBq hp hp' hvq fun τ τ' h1 h2 h3 => satAll_congr P q hBq h1 h2 h3,
      satFirst_congr P qs (fun x hx => hB x (by simp [altVars, hx])) hp hp' fun x hx => hv x (by simp [altVars, hx])]
end

theorem satAll_same (P : Program) : ∀ (q : List Form) {B B' : String → Prop} {σ : Assignment}, FormsSame q B B' → (∀ x, Plain (σ x)) →
    (SatAll P q B σ ↔ SatAll P q B' σ)
  | [], B, B', σ, _, _ => by simp only [SatAll]
  | f :: fs, B, B', σ, hf, hp => by
    simp only [FormsSame] at hf
    simp only [SatAll]
    exact and_congr (sat_congr P f hf.1 hp hp fun _ _ => rfl) (satAll_same P fs hf.2 hp)

/-! ## Whether a query is proper depends on its variables only -/

theorem given_congr {B B' : String → Prop} {v : Value} (h : ∀ x ∈ argVars [v], B x ↔ B' x) : Given B v ↔ Given B' v := by
  cases v <;> first | exact Iff.rfl | exact h _ (by simp [argVars])

theorem knownAt_congr {B B' : String → Prop} {args : List Value} (h : ∀ x ∈ argVars args, B x ↔ B' x) : knownAt B args = knownAt B' args := by
  funext i
  refine propext (exists_congr fun a => and_congr_right fun ha => given_congr fun x hx => h x ?_)
  rw [mem_argVars] at hx ⊢
  simp only [List.mem_singleton] at hx
  rw [hx]
  exact List.mem_of_getElem? ha

mutual
theorem ok_congr {ar : String → Option Nat} : ∀ (f : Form) {B B' : String → Prop}, (∀ x ∈ f.vars, B x ↔ B' x) → (f.Ok ar B → f.Ok ar B')
  | .atom p args, B, B', hB, h => by simpa only [Form.Ok] using h
  | .neg q, B, B', hB, h => by simp only [Form.Ok] at h ⊢; exact formsOk_congr q hB h
  | .thereIsNo q, B, B', hB, h => by simp only [Form.Ok] at h ⊢; exact formsOk_congr q hB h
  | .thereIs q, B, B', hB, h => by simp only [Form.Ok] at h ⊢; exact formsOk_congr q hB h
  | .exactly q n, B, B', hB, h => by
    simp only [Form.Ok] at h ⊢
    exact ⟨formsOk_congr q (fun x hx => hB x (by simp [Form.vars, hx])) h.1, (given_congr fun x hx => hB x (by simp [Form.vars, hx])).1 h.2⟩
  | .moreThan q n, B, B', hB, h => by
    simp only [Form.Ok] at h ⊢
    exact ⟨formsOk_congr q (fun x hx => hB x (by simp [Form.vars, hx])) h.1, (given_congr fun x hx => hB x (by simp [Form.vars, hx])).1 h.2⟩
  | .fewerThan q n, B, B', hB, h => by
    simp only [Form.Ok] at h ⊢
    exact ⟨formsOk_congr q (fun x hx => hB x (by simp [Form.vars, hx])) h.1, (given_congr fun x hx => hB x (by simp [Form.vars, hx])).1 h.2⟩
  | .all x r q, B, B', hB, h => by
    simp only [Form.Ok] at h ⊢
    exact ⟨fun hx => h.1 ((hB x (by simp [Form.vars])).2 hx), h.2.1, formsOk_congr r (fun x hx => hB x (by simp [Form.vars, hx])) h.2.2.1,
      formsOk_congr q (more_iff (fun x hx => hB x (by simp [Form.vars, hx])) _) h.2.2.2⟩
  | .count x q, B, B', hB, h => by
    simp only [Form.Ok] at h ⊢
    exact ⟨fun hx => h.1 ((hB x (by simp [Form.vars])).2 hx), formsOk_congr q (fun x hx => hB x (by simp [Form.vars, hx])) h.2⟩
  | .either qs, B, B', hB, h => by
    simp only [Form.Ok] at h ⊢
    refine ⟨altsOk_congr qs hB h.1, fun q hq x => ?_⟩
    have h2 := h.2 q hq x
    have hb : x ∈ formBinds q ∨ x ∈ altBinds qs → (B x ↔ B' x) := by
      intro hx
      refine hB x ?_
      simp only [Form.vars]
      rcases hx with hx | hx
      · exact altVars_mem hq x (formBinds_vars q x hx)
      · exact altBinds_vars qs x hx
    simp only [Known.more] at h2 ⊢
    constructor
    · rintro (h3 | h3)
      · exact .inl h3
      · exact (h2.1 (.inr h3)).imp (hb (.inl h3)).1 id
    · rintro (h3 | h3)
      · exact .inl h3
      · exact (h2.2 (.inr h3)).imp (hb (.inr h3)).1 id
  | .equals a c, B, B', hB, h => by simpa only [Form.Ok] using h
  | .greater a c, B, B', hB, h => by simpa only [Form.Ok] using h
  | .less a c, B, B', hB, h => by simpa only [Form.Ok] using h
  | .assign x v, B, B', hB, h => by
    simp only [Form.Ok] at h ⊢
    exact ⟨fun hx => h.1 ((hB x (by simp [Form.vars])).2 hx), (given_congr fun x hx => hB x (by simp [Form.vars, hx])).1 h.2⟩
  | .times a c x, B, B', hB, h => by
    simp only [Form.Ok] at h ⊢
    refine ⟨fun hx => h.1 ((hB x (by simp [Form.vars])).2 hx), (given_congr fun x hx => hB x ?_).1 h.2.1, (given_congr fun x hx => hB x ?_).1 h.2.2⟩
    · simp only [mem_argVars, List.mem_singleton] at hx
      simp [Form.vars, mem_argVars, hx]
    · simp only [mem_argVars, List.mem_singleton] at hx
      simp [Form.vars, mem_argVars, hx]
theorem formsOk_congr {ar : String → Option Nat} : ∀ (q : List Form) {B B' : String → Prop}, (∀ x ∈ formVars q, B x ↔ B' x) → (FormsOk ar q B → FormsOk ar q B')
  | [], B, B', hB, h => by simp only [FormsOk]
  | f :: fs, B, B', hB, h => by
    simp only [FormsOk] at h ⊢
    exact ⟨ok_congr f (fun x hx => hB x (by simp [formVars, hx])) h.1, formsOk_congr fs (more_iff (fun x hx => hB x (by simp [formVars, hx])) _) h.2⟩
theorem altsOk_congr {ar : String → Option Nat} : ∀ (qs : List (List Form)) {B B' : String → Prop}, (∀ x ∈ altVars qs, B x ↔ B' x) → (AltsOk ar qs B → AltsOk ar qs B')
  | [], B, B', hB, h => by simp only [AltsOk]
  | q :: qs, B, B', hB, h => by
    simp only [AltsOk] at h ⊢
    exact ⟨formsOk_congr q (fun x hx => hB x (by simp [altVars, hx])) h.1, altsOk_congr qs (fun x hx => hB x (by simp [altVars, hx])) h.2⟩
end

mutual
theorem called_congr {calls : Calls} : ∀ (f : Form) {B B' : String → Prop}, (∀ x ∈ f.vars, B x ↔ B' x) → (f.Called calls B → f.Called calls B')
  | .atom p args, B, B', hB, h => by
    simp only [Form.Called] at h ⊢
    rw [← knownAt_congr (B := B) fun x hx => hB x (by simpa [Form.vars] using hx)]
    exact h
  | .neg q, B, B', hB, h => by simp only [Form.Called] at h ⊢; exact formsCalled_congr q hB h
  | .thereIsNo q, B, B', hB, h => by simp only [Form.Called] at h ⊢; exact formsCalled_congr q hB h
  | .thereIs q, B, B', hB, h => by simp only [Form.Called] at h ⊢; exact formsCalled_congr q hB h
  | .exactly q n, B, B', hB, h => by
    simp only [Form.Called] at h ⊢
    exact formsCalled_congr q (fun x hx => hB x (by simp [Form.vars, hx])) h
  | .moreThan q n, B, B', hB, h => by
    simp only [Form.Called] at h ⊢
    exact formsCalled_congr q (fun x hx => hB x (by simp [Form.vars, hx])) h
  | .fewerThan q n, B, B', hB, h => by
    simp only [Form.Called] at h ⊢
    exact formsCalled_congr q (fun x hx => hB x (by simp [Form.vars, hx])) h
  | .all x r q, B, B', hB, h => by
    simp only [Form.Called] at h ⊢
    exact ⟨formsCalled_congr r (fun x hx => hB x (by simp [Form.vars, hx])) h.1,
      formsCalled_congr q (more_iff (fun x hx => hB x (by simp [Form.vars, hx])) _) h.2⟩
  | .count x q, B, B', hB, h => by
    simp only [Form.Called] at h ⊢
    exact formsCalled_congr q (fun x hx => hB x (by simp [Form.vars, hx])) h
  | .either qs, B, B', hB, h => by
    simp only [Form.Called] at h ⊢
    exact altsCalled_congr qs hB h
  | .equals .., B, B', hB, h => by simp only [Form.Called]
  | .greater .., B, B', hB, h => by simp only [Form.Called]
  | .less .., B, B', hB, h => by simp only [Form.Called]
  | .assign .., B, B', hB, h => by simp only [Form.Called]
  | .times .., B, B', hB, h => by simp only [Form.Called]
theorem formsCalled_congr {calls : Calls} : ∀ (q : List Form) {B B' : String → Prop}, (∀ x ∈ formVars q, B x ↔ B' x) → (FormsCalled calls q B → FormsCalled calls q B')
  | [], B, B', hB, h => by simp only [FormsCalled]
  | f :: fs, B, B', hB, h => by
    simp only [FormsCalled] at h ⊢
    exact ⟨called_congr f (fun x hx => hB x (by simp [formVars, hx])) h.1, formsCalled_congr fs (more_iff (fun x hx => hB x (by simp [formVars, hx])) _) h.2⟩
theorem altsCalled_congr {calls : Calls} : ∀ (qs : List (List Form)) {B B' : String → Prop}, (∀ x ∈ altVars qs, B x ↔ B' x) → (AltsCalled calls qs B → AltsCalled calls qs B')
  | [], B, B', hB, h => by simp only [AltsCalled]
  | q :: qs, B, B', hB, h => by
    simp only [AltsCalled] at h ⊢
    exact ⟨formsCalled_congr q (fun x hx => hB x (by simp [altVars, hx])) h.1, altsCalled_congr qs (fun x hx => hB x (by simp [altVars, hx])) h.2⟩
end

/-! ## The variables of the atoms that the programmer writes -/

theorem vars_args {args vs : List Value} (h : ∀ v ∈ args, v ∈ vs) {x : String} (hx : x ∈ argVars args) : x ∈ varsOfList vs := by
  rw [mem_argVars] at hx
  exact mem_varsOfList.2 ⟨.var x, h _ hx, by simp [varsOf]⟩

mutual
theorem form_vars : ∀ (f : Form), ∀ x ∈ f.vars, x ∈ varsOf f.toValue
  | .atom p args, x, h => by
    simp only [Form.vars] at h
    simp only [Form.toValue, varsOf]
    exact vars_args (by simp_all) h
  | .neg q, x, h => by
    simp only [Form.vars] at h
    simp [Form.toValue, varsOf, varsOfList, forms_vars q x h]
  | .thereIsNo q, x, h => by
    simp only [Form.vars] at h
    simp [Form.toValue, varsOf, varsOfList, forms_vars q x h]
  | .thereIs q, x, h => by
    simp only [Form.vars] at h
    simp [Form.toValue, varsOf, varsOfList, forms_vars q x h]
  | .exactly q n, x, h => by
    simp only [Form.vars, List.mem_append] at h
    rcases h with h | h
    · simp [Form.toValue, varsOf, varsOfList, forms_vars q x h]
    · simp only [Form.toValue, varsOf]
      exact vars_args (by simp) h
  | .moreThan q n, x, h => by
    simp only [Form.vars, List.mem_append] at h
    rcases h with h | h
    · simp [Form.toValue, varsOf, varsOfList, forms_vars q x h]
    · simp only [Form.toValue, varsOf]
      exact vars_args (by simp) h
  | .fewerThan q n, x, h => by
    simp only [Form.vars, List.mem_append] at h
    rcases h with h | h
    · simp [Form.toValue, varsOf, varsOfList, forms_vars q x h]
    · simp only [Form.toValue, varsOf]
      exact vars_args (by simp) h
  | .all y r q, x, h => by
    simp only [Form.vars, List.mem_append, List.mem_cons] at h
    rcases h with rfl | h | h
    · simp [Form.toValue, varsOf, varsOfList]
    · simp [Form.toValue, varsOf, varsOfList, forms_vars r x h]
    · simp [Form.toValue, varsOf, varsOfList, forms_vars q x h]
  | .count y q, x, h => by
    simp only [Form.vars, List.mem_cons] at h
    rcases h with rfl | h
    · simp [Form.toValue, varsOf, varsOfList]
    · simp [Form.toValue, varsOf, varsOfList, forms_vars q x h]
  | .either qs, x, h => by
    simp only [Form.vars] at h
    simp [Form.toValue, varsOf, varsOfList, alts_vars qs x h]
  | .equals a c, x, h => by
    simp only [Form.vars] at h
    simp only [Form.toValue, varsOf]
    exact vars_args (by simp) h
  | .greater a c, x, h => by
    simp only [Form.vars] at h
    simp only [Form.toValue, varsOf]
    exact vars_args (by simp) h
  | .less a c, x, h => by
    simp only [Form.vars] at h
    simp only [Form.toValue, varsOf]
    exact vars_args (by simp) h
  | .assign y v, x, h => by
    simp only [Form.vars, List.mem_cons] at h
    simp only [Form.toValue, varsOf]
    rcases h with rfl | h
    · simp [varsOfList, varsOf]
    · exact vars_args (by simp) h
  | .times a c y, x, h => by
    simp only [Form.vars, List.mem_append, List.mem_singleton] at h
    simp only [Form.toValue, varsOf]
    rcases h.symm with rfl | h
    · simp [varsOfList, varsOf]
    · refine vars_args ?_ h
      intro v hv
      simp only [List.mem_cons, List.not_mem_nil, or_false] at hv
      rcases hv with rfl | rfl <;> simp
theorem forms_vars : ∀ (q : List Form), ∀ x ∈ formVars q, x ∈ varsOfList (formValues q)
  | [], x, h => by simp [formVars] at h
  | f :: fs, x, h => by
    simp only [formVars, List.mem_append] at h
    simp only [formValues, varsOfList, List.mem_append]
    exact h.imp (form_vars f x) (forms_vars fs x)
theorem alts_vars : ∀ (qs : List (List Form)), ∀ x ∈ altVars qs, x ∈ varsOfList (altValues qs)
  | [], x, h => by simp [altVars] at h
  | q :: qs, x, h => by
    simp only [altVars, List.mem_append] at h
    simp only [altValues, varsOfList, varsOf, List.mem_append]
    exact h.imp (forms_vars q x) (alts_vars qs x)
end

/-! ## Entering a rule -/

/-- Which variables the rule's head makes known. -/
theorem bindHead_dom {b : Binding} (hb : PlainB b) {ras as : List Value} (has : ArgsOk as) {rb rb' : Binding} (h : bindHead b ras as rb = some rb')
    (x : String) : rb'.has x = true ↔ rb.has x = true ∨ ∃ i, ras[i]? = some (.var x) ∧ knownAt (dom b) as i := by
  induction ras generalizing as rb with
  | nil => simp only [bindHead, Option.some.injEq] at h; subst h; simp
  | cons ra ras ih =>
    cases as with
    | nil => simp only [bindHead, Option.some.injEq] at h; subst h; simp [knownAt]
    | cons a as =>
      have has' : ArgsOk as := fun x hx => has x (List.mem_cons_of_mem _ hx)
      have hsplit : (∃ i, (ra :: ras)[i]? = some (.var x) ∧ knownAt (dom b) (a :: as) i) ↔
          (ra = .var x ∧ Given (dom b) a) ∨ ∃ i, ras[i]? = some (.var x) ∧ knownAt (dom b) as i := by
        constructor
        · rintro ⟨i, h1, v, h2, h3⟩
          cases i with
          | zero =>
            simp only [List.getElem?_cons_zero, Option.some.injEq] at h1 h2
            exact .inl ⟨h1, h2 ▸ h3⟩
          | succ i =>
            simp only [List.getElem?_cons_succ] at h1 h2
            exact .inr ⟨i, h1, v, h2, h3⟩
        · rintro (⟨h1, h2⟩ | ⟨i, h1, v, h2, h3⟩)
          · exact ⟨0, by simp [h1], a, by simp, h2⟩
          · exact ⟨i + 1, by simpa using h1, v, by simpa using h2, h3⟩
      rw [hsplit]
      have hgiven : Given (dom b) a ↔ ∃ v, valueOf b a = some v := by
        cases hv : a.isVar with
        | true =>
          cases a <;> simp only [Value.isVar, Bool.false_eq_true] at hv
          simp only [Given, valueOf, dom, Dict.has_iff]
        | false =>
          have hp := has a (by simp) hv
          cases a <;> first | (simp [Value.isVar] at hv; done) | exact ⟨fun _ => ⟨_, rfl⟩, fun _ => hp⟩
      rcases boundArg_cases hb (has a (by simp)) with ⟨h1, h2⟩ | ⟨h1, h2, h3⟩
      · rw [bindHead_skip _ _ _ _ _ _ h1] at h
        rw [ih has' h, hgiven, h2]
        simp
      · have hg : Given (dom b) a := hgiven.2 ⟨_, h2⟩
        cases hra : ra.isVar with
        | true =>
          cases ra <;> simp only [Value.isVar, Bool.false_eq_true] at hra
          rename_i rn
          rw [bindHead_var _ _ _ _ _ _ h1] at h
          have hrec : bindHead b ras as (rb.set rn (boundArg b a)) = some rb' := by
            cases hg : rb.get rn with
            | none => rw [hg] at h; exact h
            | some v =>
              rw [hg] at h
              simp only [ne_eq, ite_not] at h
              split at h
              · exact h
              · simp at h
          rw [ih has' hrec, has_set]
          simp only [List.mem_singleton, Value.var.injEq, hg, and_true, or_assoc, eq_comm]
        | false =>
          rw [bindHead_const _ _ hra _ _ _ _ h1] at h
          split at h
          · simp at h
          · rw [ih has' h]
            have : ra ≠ .var x := by rintro rfl; simp [Value.isVar] at hra
            simp [this]

end Verif
