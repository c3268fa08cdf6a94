import Verif.QuantifiedMain

/-!
# Rules make good phrases
-/

namespace Verif

theorem knownAtStart_mem : ∀ {ms : List Mode} {xs : List String} {y : String}, y ∈ knownAtStart ms xs → (Mode.known, y) ∈ ms.zip xs
  | [], _, y, h => by simp [knownAtStart] at h
  | m :: ms, [], y, h => by cases m <;> simp [knownAtStart] at h
  | m :: ms, x :: xs, y, h => by
    cases m with
    | known =>
      simp only [knownAtStart, List.mem_cons] at h
      rcases h with rfl | h
      · simp
      · simp [knownAtStart_mem h]
    | new => simp [knownAtStart_mem (by simpa [knownAtStart] using h)]
    | any => simp [knownAtStart_mem (by simpa [knownAtStart] using h)]

theorem maybeAtStart_mem : ∀ {ms : List Mode} {xs : List String} {y : String}, ms.length = xs.length → y ∈ xs → y ∉ maybeAtStart ms xs →
    (Mode.new, y) ∈ ms.zip xs
  | [], [], y, _, h, _ => by simp at h
  | [], x :: xs, _, hl, _, _ => by simp at hl
  | m :: ms, [], y, _, h, _ => by simp at h
  | m :: ms, x :: xs, y, hl, h, hn => by
    simp only [List.length_cons, Nat.add_right_cancel_iff] at hl
    cases m with
    | new =>
      rcases List.mem_cons.1 h with rfl | h
      · simp
      · simp [maybeAtStart_mem hl h (by simpa [maybeAtStart] using hn)]
    | known =>
      simp only [maybeAtStart, List.mem_cons, not_or] at hn
      rcases List.mem_cons.1 h with h | h
      · exact absurd h hn.1
      · simp [maybeAtStart_mem hl h hn.2]
    | any =>
      simp only [maybeAtStart, List.mem_cons, not_or] at hn
      rcases List.mem_cons.1 h with h | h
      · exact absurd h hn.1
      · simp [maybeAtStart_mem hl h hn.2]

/-- If the meaning of a rule fits its signature, and its consequents are good phrases, the rule makes a good phrase. The variables of the phrase's
own are those of its consequents and the new ones of the rule. -/
theorem good_rule {Γ : Typing} {P : Program} {s : Sig} {e : List Part} (hfit : fitsRule Γ s e = true) (hslot : Γ.slot = s.slot) {ρ : String → String}
    (inj : ∀ y ∈ Γ.ante ++ everyVarAll Γ.args Γ.ante e, ∀ y' ∈ Γ.ante ++ everyVarAll Γ.args Γ.ante e, ρ y = ρ y' → y = y')
    {G : Nat → (Nat → List Form) → List Form} {D : Nat → (Nat → List Value → Prop) → List Value → Prop} {own : Nat → String → Prop}
    (kids : ∀ i ∈ kidsAll e, GoodPhrase Γ.ar P (Γ.sig i) ((Γ.args i).map ρ) (own i) (G i) (D i))
    (ownVar : ∀ i ∈ kidsAll e, ∀ x, own i x → ∀ y ∈ Γ.ante ++ everyVarAll Γ.args Γ.ante e, x ≠ ρ y)
    (ownApart : ∀ i ∈ kidsAll e, ∀ i' ∈ kidsAll e, i ≠ i' → ∀ x, own i x → ¬ own i' x) {own' : String → Prop}
    (hown1 : ∀ i ∈ kidsAll e, ∀ x, own i x → own' x) (hown2 : ∀ y ∈ everyVarAll Γ.args Γ.ante e, y ∉ Γ.ante → own' (ρ y)) :
    GoodPhrase Γ.ar P s (Γ.ante.map ρ) own' (fun H => plugAll G H ρ e) (phraseDen P Γ.args D Γ.ante e) := by
  simp only [fitsRule, Bool.and_eq_true, decide_eq_true_eq, within_iff, Bool.or_eq_true, Bool.not_eq_true'] at hfit
  obtain ⟨⟨⟨⟨⟨⟨hnd, hlen⟩, hh⟩, hk⟩, hf⟩, haft⟩, hti⟩ := hfit
  intro B Fs hm hfill hnew
  let L : Place := {
    Γ := Γ, P := P, ρ := ρ, V := fun y => y ∈ Γ.ante ++ everyVarAll Γ.args Γ.ante e, I := fun i => i ∈ kidsAll e, G := G, D := D, own := own, Fs := Fs,
    B0 := B, inj := fun y y' hy hy' => inj y hy y' hy', anteV := fun y hy => List.mem_append_left _ hy, kids := kids, ownVar := ownVar,
    ownNew := fun i hi x hx j => (hnew x (hown1 i hi x hx)).2.2 j, ownApart := fun i i' hi hi' => ownApart i hi i' hi', fill := hslot ▸ hfill,
    varNew := fun y hy ha j => (hnew _ (hown2 y ((List.mem_append.1 hy).resolve_left ha) ha)).2.2 j }
  have hat : L.At (knownAtStart s.modes Γ.ante) (maybeAtStart s.modes Γ.ante) B (everyVarAll Γ.args Γ.ante e) (holesAll e) (kidsAll e) := by
    have hzip : ∀ m y, (m, y) ∈ s.modes.zip Γ.ante → (m, ρ y) ∈ s.modes.zip (Γ.ante.map ρ) := by
      intro m y h
      rw [List.zip_map_right]
      exact List.mem_map.2 ⟨(m, y), h, rfl⟩
    refine ⟨fun _ h => h, ?_, ?_, fun _ _ x _ hb => Or.inl hb, ?_, fun y hy => List.mem_append_right _ hy, fun i hi => hi, hh, hk⟩
    · intro y hy
      exact (hm _ (hzip _ _ (knownAtStart_mem hy))).1 rfl
    · intro y hy hn
      by_cases ha : y ∈ Γ.ante
      · exact (hm _ (hzip _ _ (maybeAtStart_mem hlen ha hn))).2 rfl
      · exact (hnew _ (hown2 y hy ha)).1
    · intro i hi x hx
      exact (hnew x (hown1 i hi x hx)).1
  have hg : L.GoodParts e B := Place.good_parts e _ _ B hat hf
  have hsup : ∀ x, L.sup (freeVarsAll Γ.args Γ.ante e) (holesAll e) x → (x ∈ Γ.ante.map ρ ∨ ∃ j, (Fs j).sup x) ∨ own' x ∨ ∃ j, (Fs j).loc x := by
    rintro x (⟨y, hy, rfl⟩ | ⟨k, hk, h1, _⟩)
    · by_cases ha : y ∈ Γ.ante
      · exact Or.inl (Or.inl (List.mem_map_of_mem ha))
      · exact Or.inr (Or.inl (hown2 y (free_everyAll _ _ e y hy) ha))
    · exact Or.inl (Or.inr ⟨k, h1⟩)
  have hloc : ∀ x, L.loc (kidsAll e) (holesAll e) x → own' x ∨ ∃ j, (Fs j).loc x := by
    rintro x (⟨i, hi, h1⟩ | ⟨k, hk, h1⟩)
    · exact Or.inl (hown1 i hi x h1)
    · exact Or.inr ⟨k, h1⟩
  refine ⟨hg.ok, ?_, ?_, ?_, ?_, ?_⟩
  · intro x hx
    rw [flagged_map] at hx
    obtain ⟨y, hy, rfl⟩ := List.mem_map.1 hx
    rcases List.mem_append.1 (haft y hy) with h | h
    · exact Or.inl (hat.known y h)
    · exact hg.must _ (List.mem_map_of_mem h)
  · intro x hx
    rcases hg.binds x hx with h | h
    · exact hsup x h
    · exact Or.inr (hloc x h)
  · intro ht x hx
    rcases hti with h | h
    · rw [h] at ht
      exact absurd ht (by simp)
    · rcases hg.tight h.1 x hx with ⟨y, hy, rfl⟩ | ⟨k, hk, h1, _⟩
      · exact Or.inl (List.mem_map_of_mem (h.2 y hy))
      · exact Or.inr ⟨k, h1⟩
  · intro σ hp hs
    exact ⟨L.vals σ, fun y => hp _, (Place.inc_map (L := L) σ).symm, hg.sound σ hp hs⟩
  · rintro σ hp ⟨τ, hτ, hant, htr⟩
    let xs := (everyVarAll Γ.args Γ.ante e).filter fun y => !Γ.ante.contains y
    have hxs : ∀ y, y ∈ xs ↔ y ∈ everyVarAll Γ.args Γ.ante e ∧ y ∉ Γ.ante := by simp [xs]
    have hVx : ∀ y ∈ xs, L.V y := fun y hy => List.mem_append_right _ ((hxs y).1 hy).1
    have hp1 := Place.putVars_plain (L := L) (xs := xs) hp hτ
    have hante : ∀ y ∈ Γ.ante, L.putVars xs σ τ (ρ y) = τ y := by
      intro y hy
      rw [Place.putVars_off (L := L) σ τ]
      · have h1 : Γ.ante.map τ = Γ.ante.map fun y => σ (ρ y) := by simpa [Function.comp_def] using hant
        exact ((List.map_inj_left.1 h1) y hy).symm
      · intro z hz ez
        exact ((hxs z).1 hz).2 (L.inj y z (L.anteV y hy) (hVx z hz) ez ▸ hy)
    obtain ⟨σ1, h1, h2, h3⟩ := hg.complete (L.putVars xs σ τ) hp1 (by
      refine (truthAll_congr (L.sameBut _ σ) e ?_ ?_).2 htr
      · intro y hy
        by_cases ha : y ∈ Γ.ante
        · exact hante y ha
        · exact Place.putVars_on hVx σ τ ((hxs y).2 ⟨free_everyAll _ _ e y hy, ha⟩)
      · intro k hk
        refine L.slots_congr fun x hx hn => ?_
        refine Place.putVars_off σ τ fun y hy ey => ?_
        have ey' : x = ρ y := ey
        exact (hnew _ (hown2 y ((hxs y).1 hy).1 ((hxs y).1 hy).2)).2.2 k (ey' ▸ (hfill.each k).supAll x hx))
    refine ⟨σ1, h1, ?_, ?_⟩
    · intro x hx
      rw [h2 x fun h => hx (hloc x h)]
      refine Place.putVars_off σ τ fun y hy ey => ?_
      exact hx (Or.inl (ey ▸ hown2 y ((hxs y).1 hy).1 ((hxs y).1 hy).2))
    · intro σ2 hp2 he
      refine h3 σ2 hp2 fun x hx => he x ?_
      rcases hx with h | h
      · exact hsup x h
      · exact Or.inr (hloc x h)

end Verif
