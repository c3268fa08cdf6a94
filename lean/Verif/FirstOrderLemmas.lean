import Verif.FirstOrder
import Verif.DatalogMain
import Verif.Props.Core1
import Verif.Props.Core3
import Verif.Props.Datalog

/-!
# Answers of the solver to queries with negation, quantifiers, numbers and alternatives
-/

namespace Verif

/-- The variables bound by a binding. -/
def dom (b : Binding) : String → Prop := fun x => b.has x = true

/-- The answers are exactly the ways to give values to the variables `V`. -/
structure Exact (V : List String) (S : Assignment → Prop) (b : Binding) (bs : List Binding) : Prop where
  sound : ∀ b' ∈ bs, PlainB b' ∧ Extends b b' ∧ (∀ x, b'.has x = true ↔ b.has x = true ∨ x ∈ V) ∧
    ∀ σ : Assignment, (∀ x, Plain (σ x)) → Agrees σ b' → S σ
  complete : ∀ σ : Assignment, (∀ x, Plain (σ x)) → Agrees σ b → S σ → ∃ b' ∈ bs, Agrees σ b'
  noDup : NoDup bs

/-- Completes a binding to an assignment of proper values. -/
def totalOf (b : Binding) : Assignment := fun x => (b.get x).getD (.num 0)

theorem totalOf_agrees (b : Binding) : Agrees (totalOf b) b := fun x v h => by simp [totalOf, h]

theorem totalOf_plain {b : Binding} (h : PlainB b) (x : String) : Plain (totalOf b x) := by
  simp only [totalOf]
  cases hx : b.get x with
  | none => exact ⟨by simp, rfl, rfl⟩
  | some v => exact h x v hx

theorem Exact.dom_eq {V : List String} {S : Assignment → Prop} {b : Binding} {bs : List Binding} (h : Exact V S b bs) {b' : Binding}
    (hb' : b' ∈ bs) : dom b' = Known.more (dom b) V := by
  funext x
  exact propext ((h.sound b' hb').2.2.1 x)

theorem agrees_of_agreeOn {σ τ : Assignment} {b : Binding} (h : AgreeOn (dom b) σ τ) (hσ : Agrees σ b) : Agrees τ b := by
  intro x v hx
  rw [h.2 x ((Dict.has_iff _ _).2 ⟨v, hx⟩)]
  exact hσ x v hx

theorem agreeOn_of_agrees {σ τ : Assignment} {b : Binding} (hp : ∀ x, Plain (τ x)) (hσ : Agrees σ b) (hτ : Agrees τ b) :
    AgreeOn (dom b) σ τ := by
  refine ⟨hp, fun x hx => ?_⟩
  obtain ⟨v, hv⟩ := (Dict.has_iff _ _).1 hx
  rw [hσ x v hv, hτ x v hv]

/-- There is an answer iff the query can be satisfied. -/
theorem Exact.nonempty {V : List String} {S : Assignment → Prop} {b : Binding} {bs : List Binding} (h : Exact V S b bs)
    {σ : Assignment} (hσ : Agrees σ b) : (∃ τ, AgreeOn (dom b) σ τ ∧ S τ) ↔ bs ≠ [] := by
  constructor
  · rintro ⟨τ, hs, hS⟩ e
    obtain ⟨b', hb', _⟩ := h.complete τ hs.1 (agrees_of_agreeOn hs hσ) hS
    rw [e] at hb'
    simp at hb'
  · intro hne
    cases bs with
    | nil => exact absurd rfl hne
    | cons b' bs =>
      obtain ⟨h1, h2, _, h4⟩ := h.sound b' (by simp)
      exact ⟨totalOf b', agreeOn_of_agrees (totalOf_plain h1) hσ ((totalOf_agrees b').mono h2), h4 _ (totalOf_plain h1) (totalOf_agrees b')⟩

/-- A test: the binding itself, or nothing. -/
theorem exact_test {b : Binding} (hb : PlainB b) {S : Assignment → Prop} {c : Prop} [Decidable c]
    (h : ∀ σ : Assignment, (∀ x, Plain (σ x)) → Agrees σ b → (S σ ↔ c)) : Exact [] S b (if c then [b] else []) := by
  by_cases hc : c
  · rw [if_pos hc]
    refine ⟨?_, fun σ _ hσ _ => ⟨b, by simp, hσ⟩, by simp [NoDup]⟩
    intro b' hb'
    simp only [List.mem_singleton] at hb'
    subst hb'
    exact ⟨hb, Extends.refl _, by simp, fun σ hp hσ => (h σ hp hσ).2 hc⟩
  · rw [if_neg hc]
    exact ⟨by simp, fun σ hp hσ hS => absurd ((h σ hp hσ).1 hS) hc, by simp [NoDup]⟩

theorem agrees_set {σ : Assignment} {b : Binding} {x : String} {v : Value} (hx : b.get x = none) :
    Agrees σ (b.set x v) ↔ Agrees σ b ∧ σ x = v := by
  constructor
  · intro h
    refine ⟨fun y u hy => ?_, h x v (by simp)⟩
    by_cases e : x = y
    · subst e; rw [hx] at hy; simp at hy
    · exact h y u (by rw [Dict.get_set, if_neg e]; exact hy)
  · rintro ⟨h1, h2⟩ y u hy
    rw [Dict.get_set] at hy
    split at hy
    · rename_i e; subst e; cases hy; exact h2
    · exact h1 y u hy

theorem plainB_set {b : Binding} (hb : PlainB b) {x : String} {v : Value} (hv : Plain v) : PlainB (b.set x v) := by
  intro y u hy
  rw [Dict.get_set] at hy
  split at hy
  · cases hy; exact hv
  · exact hb y u hy

theorem has_set {b : Binding} {x : String} {v : Value} (y : String) : (b.set x v).has y = true ↔ b.has y = true ∨ y ∈ [x] := by
  simp only [Dict.has, Dict.get_set, List.mem_singleton]
  split
  · rename_i e; simp [e]
  · rename_i e; simp [Ne.symm e]

theorem extends_set {b : Binding} {x : String} {v : Value} (hx : b.get x = none) : Extends b (b.set x v) := by
  intro k u hk
  rw [Dict.get_set]
  split
  · rename_i e; subst e; rw [hx] at hk; simp at hk
  · exact hk

/-- A new variable gets a value. -/
theorem exact_bind {b : Binding} (hb : PlainB b) {S : Assignment → Prop} {x : String} (hx : b.get x = none) {v : Value} (hv : Plain v)
    (h : ∀ σ : Assignment, (∀ x, Plain (σ x)) → Agrees σ b → (S σ ↔ σ x = v)) : Exact [x] S b [b.set x v] := by
  refine ⟨?_, fun σ hp hσ hS => ⟨_, by simp, (agrees_set hx).2 ⟨hσ, (h σ hp hσ).1 hS⟩⟩, by simp [NoDup]⟩
  intro b' hb'
  simp only [List.mem_singleton] at hb'
  subst hb'
  refine ⟨plainB_set hb hv, extends_set hx, fun y => has_set y, fun σ hp hσ => ?_⟩
  obtain ⟨h1, h2⟩ := (agrees_set hx).1 hσ
  exact (h σ hp h1).2 h2

/-- The same answers for the same condition. -/
theorem Exact.congr {V V' : List String} {S S' : Assignment → Prop} {b : Binding} {bs : List Binding} (h : Exact V S b bs)
    (hV : ∀ x, Known.more (dom b) V x ↔ Known.more (dom b) V' x)
    (hS : ∀ σ : Assignment, (∀ x, Plain (σ x)) → Agrees σ b → (S σ ↔ S' σ)) : Exact V' S' b bs := by
  refine ⟨fun b' hb' => ?_, fun σ hp hσ h' => h.complete σ hp hσ ((hS σ hp hσ).2 h'), h.noDup⟩
  obtain ⟨h1, h2, h3, h4⟩ := h.sound b' hb'
  exact ⟨h1, h2, fun x => (h3 x).trans (hV x), fun σ hp hσ => (hS σ hp (hσ.mono h2)).1 (h4 σ hp hσ)⟩

/-! ## Numbers of answers -/

theorem length_le_of_cover {V : String → Prop} {L L' : List Assignment}
    (hd : L.Pairwise fun τ τ' => ∃ x, V x ∧ τ x ≠ τ' x) (h : ∀ τ ∈ L, ∃ τ' ∈ L', ∀ x, V x → τ x = τ' x) : L.length ≤ L'.length := by
  induction L generalizing L' with
  | nil => simp
  | cons τ L ih =>
    obtain ⟨τ', hτ', hs⟩ := h τ (by simp)
    obtain ⟨l1, l2, rfl⟩ := List.append_of_mem hτ'
    obtain ⟨hd1, hd2⟩ := List.pairwise_cons.1 hd
    have := ih (L' := l1 ++ l2) hd2 (fun τ1 h1 => by
      obtain ⟨τ2, h2, hs2⟩ := h τ1 (by simp [h1])
      refine ⟨τ2, ?_, hs2⟩
      have hne : ¬ (∀ x, V x → τ2 x = τ' x) := by
        intro he
        obtain ⟨x, hx, hne⟩ := hd1 τ1 h1
        exact hne (by rw [hs x hx, hs2 x hx, he x hx])
      rcases List.mem_append.1 h2 with h3 | h3
      · simp [h3]
      · rcases List.mem_cons.1 h3 with rfl | h3
        · exact absurd (fun x _ => rfl) hne
        · simp [h3])
    simp only [List.length_append, List.length_cons] at this ⊢
    omega

theorem HasCount.unique {V : String → Prop} {S : Assignment → Prop} {k k' : Nat} (h : HasCount V S k) (h' : HasCount V S k') : k = k' := by
  obtain ⟨L, rfl, h1, h2, h3⟩ := h
  obtain ⟨L', rfl, h1', h2', h3'⟩ := h'
  exact Nat.le_antisymm (length_le_of_cover h2 fun τ hτ => h3' τ (h1 τ hτ)) (length_le_of_cover h2' fun τ hτ => h3 τ (h1' τ hτ))

/-- The number of answers is the number of ways to satisfy the query. -/
theorem Exact.hasCount {V : List String} {S : Assignment → Prop} {b : Binding} {bs : List Binding} (h : Exact V S b bs)
    {σ : Assignment} (hσ : Agrees σ b) : HasCount (Known.more (dom b) V) (fun τ => AgreeOn (dom b) σ τ ∧ S τ) bs.length := by
  refine ⟨bs.map totalOf, by simp, ?_, ?_, ?_⟩
  · intro τ hτ
    obtain ⟨b', hb', rfl⟩ := List.mem_map.1 hτ
    obtain ⟨h1, h2, _, h4⟩ := h.sound b' hb'
    exact ⟨agreeOn_of_agrees (totalOf_plain h1) hσ ((totalOf_agrees b').mono h2), h4 _ (totalOf_plain h1) (totalOf_agrees b')⟩
  · rw [List.pairwise_map]
    refine List.Pairwise.imp_of_mem ?_ h.noDup
    intro b1 b2 hb1 hb2 hne
    apply Classical.byContradiction
    intro hno
    apply hne
    intro x
    have e1 : b1.has x = true ↔ b2.has x = true := by rw [(h.sound b1 hb1).2.2.1, (h.sound b2 hb2).2.2.1]
    cases hx1 : b1.get x with
    | none =>
      cases hx2 : b2.get x with
      | none => rfl
      | some v => exact absurd (e1.2 ((Dict.has_iff _ _).2 ⟨v, hx2⟩)) (by simp [Dict.has, hx1])
    | some v =>
      obtain ⟨u, hu⟩ := (Dict.has_iff _ _).1 (e1.1 ((Dict.has_iff _ _).2 ⟨v, hx1⟩))
      have : totalOf b1 x = totalOf b2 x := by
        apply Classical.byContradiction
        intro hne
        exact hno ⟨x, by rw [← h.dom_eq hb1]; exact (Dict.has_iff _ _).2 ⟨v, hx1⟩, hne⟩
      simp only [totalOf, hx1, hu, Option.getD_some] at this
      rw [hu, this]
  · intro τ hτ
    obtain ⟨b', hb', hag⟩ := h.complete τ hτ.1.1 (agrees_of_agreeOn hτ.1 hσ) hτ.2
    refine ⟨totalOf b', List.mem_map.2 ⟨b', hb', rfl⟩, fun x hx => ?_⟩
    rw [← h.dom_eq hb'] at hx
    obtain ⟨v, hv⟩ := (Dict.has_iff _ _).1 hx
    rw [hag x v hv, totalOf_agrees b' x v hv]

theorem Exact.count_iff {V : List String} {S : Assignment → Prop} {b : Binding} {bs : List Binding} (h : Exact V S b bs)
    {σ : Assignment} (hσ : Agrees σ b) {k : Nat} :
    HasCount (Known.more (dom b) V) (fun τ => AgreeOn (dom b) σ τ ∧ S τ) k ↔ k = bs.length :=
  ⟨fun hk => hk.unique (h.hasCount hσ), fun e => e ▸ h.hasCount hσ⟩

/-! ## Sequences -/

/-- Answers of a conjunction. -/
theorem exact_collect {W : Type} {V1 V2 : List String} {S1 S2 : Assignment → Prop} {b : Binding} {bs : List Binding} (h1 : Exact V1 S1 b bs)
    {f : Binding → M W SolOut} {w : W}
    (hf : ∀ b1 ∈ bs, ∀ w' out, f b1 w = .ok w' out → w' = w ∧ ∃ bs1, out = .rows bs1 ∧ Exact V2 S2 b1 bs1)
    {w' : W} {out : SolOut} (h : collect f bs [] w = .ok w' out) :
    w' = w ∧ ∃ bs2, out = .rows bs2 ∧ Exact (V1 ++ V2) (fun σ => S1 σ ∧ S2 σ) b bs2 := by
  have key : ∀ (l : List Binding) (acc : List Binding), (∀ b1 ∈ l, b1 ∈ bs) → collect f l acc w = .ok w' out →
      w' = w ∧ ∃ bs2, out = .rows bs2 ∧ (∀ r ∈ acc, r ∈ bs2) ∧
        (∀ r ∈ bs2, r ∈ acc ∨ ∃ b1 ∈ l, ∃ rs, f b1 w = .ok w (.rows rs) ∧ r ∈ rs) ∧
        (∀ b1 ∈ l, ∃ rs, f b1 w = .ok w (.rows rs) ∧ ∀ r ∈ rs, ∃ r' ∈ bs2, SameDict r' r) := by
    intro l
    induction l with
    | nil =>
      intro acc _ h
      simp only [collect, M.pure_run, Res.ok.injEq] at h
      obtain ⟨rfl, rfl⟩ := h
      exact ⟨rfl, acc, rfl, fun _ h => h, fun _ h => .inl h, by simp⟩
    | cons b1 l ih =>
      intro acc hl h
      simp only [collect] at h
      obtain ⟨w1, o1, e1, e2⟩ := M.bind_eq_ok.1 h
      obtain ⟨rfl, rs, rfl, _⟩ := hf b1 (hl b1 (by simp)) _ _ e1
      obtain ⟨rfl, bs2, rfl, h3, h4, h5⟩ := ih (rs.foldl addNew acc) (fun b hb => hl b (by simp [hb])) e2
      refine ⟨rfl, bs2, rfl, fun r hr => h3 r (mem_foldl_addNew_of_mem hr), ?_, ?_⟩
      · intro r hr
        rcases h4 r hr with h6 | ⟨b', hb', x⟩
        · rcases mem_foldl_addNew h6 with h6 | h6
          · exact .inl h6
          · exact .inr ⟨b1, by simp, rs, e1, h6⟩
        · exact .inr ⟨b', by simp [hb'], x⟩
      · intro b' hb'
        rcases List.mem_cons.1 hb' with rfl | hb'
        · refine ⟨rs, e1, fun r hr => ?_⟩
          obtain ⟨r', hr', hs⟩ := foldl_addNew_covers (acc := acc) hr
          exact ⟨r', h3 r' hr', hs⟩
        · exact h5 b' hb'
  obtain ⟨rfl, bs2, rfl, _, h3, h4⟩ := key bs [] (fun _ h => h) h
  refine ⟨rfl, bs2, rfl, ?_, ?_, collect_noDup h List.Pairwise.nil⟩
  · intro b2 hb2
    rcases h3 b2 hb2 with h' | ⟨b1, hb1, rs, hrs, hmem⟩
    · simp at h'
    · obtain ⟨_, rs', e, hx⟩ := hf b1 hb1 _ _ hrs
      cases e
      obtain ⟨a1, a2, a3, a4⟩ := h1.sound b1 hb1
      obtain ⟨c1, c2, c3, c4⟩ := hx.sound b2 hmem
      refine ⟨c1, a2.trans c2, fun x => ?_, fun σ hp hσ => ⟨a4 σ hp (hσ.mono c2), c4 σ hp hσ⟩⟩
      rw [c3, a3, List.mem_append, or_assoc]
  · intro σ hp hσ hS
    obtain ⟨b1, hb1, hag⟩ := h1.complete σ hp hσ hS.1
    obtain ⟨rs, hrs, hall⟩ := h4 b1 hb1
    obtain ⟨_, rs', e, hx⟩ := hf b1 hb1 _ _ hrs
    cases e
    obtain ⟨b2, hb2, hag2⟩ := hx.complete σ hp hag hS.2
    obtain ⟨b3, hb3, hs3⟩ := hall b2 hb2
    exact ⟨b3, hb3, fun x v hx => hag2 x v (by rw [← hs3]; exact hx)⟩

/-! ## Comparison -/

mutual
theorem pyLt_iff : ∀ {a b : Value} {c : Bool}, pyLt a b = .ok c → (c = true ↔ Less a b)
  | .num a, .num b, c, h => by
    simp only [pyLt, Except.ok.injEq] at h
    subst h
    rw [decide_eq_true_eq]
    exact ⟨Less.num, fun h => by cases h; assumption⟩
  | .str a, .str b, c, h => by
    simp only [pyLt, Except.ok.injEq] at h
    subst h
    rw [decide_eq_true_eq]
    exact ⟨Less.str, fun h => by cases h; assumption⟩
  | .list a, .list b, c, h => by
    simp only [pyLt] at h
    rw [pyLtList_iff h]
    exact ⟨Less.list, fun h => by cases h; assumption⟩
  | .tuple a, .tuple b, c, h => by
    simp only [pyLt] at h
    rw [pyLtList_iff h]
    exact ⟨Less.tuple, fun h => by cases h; assumption⟩
  | .none, _, _, h => by simp [pyLt] at h
  | .var _, _, _, h => by simp [pyLt] at h
  | .rvar _, _, _, h => by simp [pyLt] at h
  | .tmpl _ _, _, _, h => by simp [pyLt] at h
  | .num _, .none, _, h => by simp [pyLt] at h
  | .num _, .str _, _, h => by simp [pyLt] at h
  | .num _, .var _, _, h => by simp [pyLt] at h
  | .num _, .rvar _, _, h => by simp [pyLt] at h
  | .num _, .list _, _, h => by simp [pyLt] at h
  | .num _, .tuple _, _, h => by simp [pyLt] at h
  | .num _, .tmpl _ _, _, h => by simp [pyLt] at h
  | .str _, .none, _, h => by simp [pyLt] at h
  | .str _, .num _, _, h => by simp [pyLt] at h
  | .str _, .var _, _, h => by simp [pyLt] at h
  | .str _, .rvar _, _, h => by simp [pyLt] at h
  | .str _, .list _, _, h => by simp [pyLt] at h
  | .str _, .tuple _, _, h => by simp [pyLt] at h
  | .str _, .tmpl _ _, _, h => by simp [pyLt] at h
  | .list _, .none, _, h => by simp [pyLt] at h
  | .list _, .num _, _, h => by simp [pyLt] at h
  | .list _, .str _, _, h => by simp [pyLt] at h
  | .list _, .var _, _, h => by simp [pyLt] at h
  | .list _, .rvar _, _, h => by simp [pyLt] at h
  | .list _, .tuple _, _, h => by simp [pyLt] at h
  | .list _, .tmpl _ _, _, h => by simp [pyLt] at h
  | .tuple _, .none, _, h => by simp [pyLt] at h
  | .tuple _, .num _, _, h => by simp [pyLt] at h
  | .tuple _, .str _, _, h => by simp [pyLt] at h
  | .tuple _, .var _, _, h => by simp [pyLt] at h
  | .tuple _, .rvar _, _, h => by simp [pyLt] at h
  | .tuple _, .list _, _, h => by simp [pyLt] at h
  | .tuple _, .tmpl _ _, _, h => by simp [pyLt] at h
theorem pyLtList_iff : ∀ {a b : List Value} {c : Bool}, pyLtList a b = .ok c → (c = true ↔ LessLex a b)
  | [], [], c, h => by
    simp only [pyLtList, Except.ok.injEq] at h
    subst h
    exact ⟨by simp, fun h => by cases h⟩
  | [], y :: ys, c, h => by
    simp only [pyLtList, Except.ok.injEq] at h
    subst h
    exact ⟨fun _ => .nil, fun _ => rfl⟩
  | x :: xs, [], c, h => by
    simp only [pyLtList, Except.ok.injEq] at h
    subst h
    exact ⟨by simp, fun h => by cases h⟩
  | x :: xs, y :: ys, c, h => by
    simp only [pyLtList] at h
    split at h
    · rename_i e
      subst e
      rw [pyLtList_iff h]
      exact ⟨.tail, fun h => by
        cases h with
        | head hne _ => exact absurd rfl hne
        | tail h => exact h⟩
    · rename_i e
      rw [pyLt_iff h]
      exact ⟨.head e, fun h => by
        cases h with
        | head _ h => exact h
        | tail _ => exact absurd rfl e⟩
end

end Verif
