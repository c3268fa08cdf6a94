import Verif.Pipeline
import Verif.Props.Memory

/-!
# C49-C54: control blocks, languages, errors, execution
-/

namespace Verif

variable {P W T : Type}

/-! ## Specification: trying products one after the other -/

/-- From state `s` the products `ps` are tried in order: each is made the current product of processor `i` and then the rest of the
pipeline runs once, with the outcomes `rs`, ending in `s'`. -/
inductive Tried (i : Nat) (next : M (Request P × W) BlockResult) :
    List P → Request P × W → List BlockResult → Request P × W → Prop
  | nil (s) : Tried i next [] s [] s
  | cons {p ps s s1 s' r rs} (h : next (s.1.setCurrent i p, s.2) = .ok s1 r) (t : Tried i next ps s1 rs s') :
      Tried i next (p :: ps) s (r :: rs) s'

/-- The outcome is a failure. -/
def BlockResult.Fails (r : BlockResult) : Prop := r.errorType ≠ ""

theorem findOneProducts_iff {i : Nat} {next : M (Request P × W) BlockResult} {ps : List P} {last r : BlockResult} {s s' : Request P × W} :
    findOneProducts i next ps last s = .ok s' r ↔
      (∃ pre p post rs s1 r1, ps = pre ++ p :: post ∧ Tried i next pre s rs s1 ∧ (∀ x ∈ rs, x.Fails) ∧
        next (s1.1.setCurrent i p, s1.2) = .ok s' r1 ∧ ¬ r1.Fails ∧ r = .success) ∨
      (∃ rs, Tried i next ps s rs s' ∧ (∀ x ∈ rs, x.Fails) ∧ r = (rs.getLast?).getD last) := by
  induction ps generalizing last s with
  | nil =>
    simp only [findOneProducts, M.pure_eq_ok]
    constructor
    · rintro ⟨rfl, rfl⟩
      exact .inr ⟨[], .nil _, by simp, rfl⟩
    · rintro (⟨pre, p, post, rs, s1, r1, h, _⟩ | ⟨rs, h, _, h2⟩)
      · simp at h
      · cases h; exact ⟨rfl, by simpa using h2.symm⟩
  | cons p ps ih =>
    simp only [findOneProducts, setCurrentProduct]
    rw [M.bind_ok (M.modify_run _ s)]
    constructor
    · intro h
      obtain ⟨s1, r1, h1, h2⟩ := M.bind_eq_ok.1 h
      by_cases hr : r1.errorType = ""
      · rw [if_pos hr, M.pure_eq_ok] at h2
        obtain ⟨rfl, rfl⟩ := h2
        exact .inl ⟨[], p, ps, [], s, r1, rfl, .nil _, by simp, h1, by simpa [BlockResult.Fails] using hr, rfl⟩
      · rw [if_neg hr, ih] at h2
        rcases h2 with ⟨pre, q, post, rs, s2, r2, e, ht, hf, hn, hs, hr'⟩ | ⟨rs, ht, hf, hr'⟩
        · refine .inl ⟨p :: pre, q, post, r1 :: rs, s2, r2, by simp [e], .cons h1 ht, ?_, hn, hs, hr'⟩
          intro x hx
          rcases List.mem_cons.1 hx with rfl | hx
          · exact hr
          · exact hf x hx
        · refine .inr ⟨r1 :: rs, .cons h1 ht, ?_, ?_⟩
          · intro x hx
            rcases List.mem_cons.1 hx with rfl | hx
            · exact hr
            · exact hf x hx
          · rw [hr']
            cases rs with
            | nil => rfl
            | cons a rs => simp [List.getLast?_cons]
    · rintro (⟨pre, q, post, rs, s2, r2, e, ht, hf, hn, hs, hr'⟩ | ⟨rs, ht, hf, hr'⟩)
      · cases ht with
        | nil =>
          simp only [List.nil_append, List.cons.injEq] at e
          obtain ⟨rfl, rfl⟩ := e
          rw [M.bind_ok hn, if_pos (by simpa [BlockResult.Fails] using hs)]
          subst hr'; rfl
        | cons h1 ht =>
          rename_i r1 rs'
          simp only [List.cons_append, List.cons.injEq] at e
          obtain ⟨rfl, rfl⟩ := e
          rw [M.bind_ok h1, if_neg (hf _ (by simp)), ih]
          exact .inl ⟨_, q, post, _, s2, r2, rfl, ht, fun x hx => hf x (List.mem_cons_of_mem _ hx), hn, hs, hr'⟩
      · cases ht with
        | cons h1 ht =>
          rename_i r1 rs'
          rw [M.bind_ok h1, if_neg (hf _ (by simp)), ih]
          refine .inr ⟨_, ht, fun x hx => hf x (List.mem_cons_of_mem _ hx), ?_⟩
          rw [hr']
          cases rs' with
          | nil => rfl
          | cons a rs => simp [List.getLast?_cons]

/-- The processor of a block runs on the request `s.1` and yields `ps` without error, leaving the world `w`. -/
def Yields (proc : Processor P W) (s : Request P × W) (ps : List P) (w : W) : Prop :=
  ∃ args, proc.process s.1 s.2 = .ok w ⟨ps, "", args⟩

/-- `s` after the processor has run and its products have been registered. -/
def started (proc : Processor P W) (s : Request P × W) (ps : List P) (w : W) : Request P × W :=
  (s.1.setAlternatives proc.id ps, w)

theorem execProcess_ok {proc : Processor P W} {s : Request P × W} {r : ProcResult P} {w : W}
    (h : proc.process s.1 s.2 = .ok w r) : execProcess proc s = .ok (s.1, w) r := by
  simp [execProcess, onWorld, h]

/-- **C49** The complete behaviour of a `FindOne` block: products are tried in order; either there is a first one with which the rest
of the pipeline succeeds, and none is tried after it; or all fail and the block ends with the last error (with success if there are
no products). -/
theorem C49_find_one (proc : Processor P W) (next : M (Request P × W) BlockResult) {s s' : Request P × W} {ps : List P} {w : W}
    {r : BlockResult} (hy : Yields proc s ps w) :
    findOne proc next s = .ok s' r ↔
      (∃ pre p post rs s1 r1, ps = pre ++ p :: post ∧ Tried proc.id next pre (started proc s ps w) rs s1 ∧ (∀ x ∈ rs, x.Fails) ∧
        next (s1.1.setCurrent proc.id p, s1.2) = .ok s' r1 ∧ ¬ r1.Fails ∧ r = .success) ∨
      (∃ rs, Tried proc.id next ps (started proc s ps w) rs s' ∧ (∀ x ∈ rs, x.Fails) ∧ r = (rs.getLast?).getD .success) := by
  obtain ⟨args, hp⟩ := hy
  unfold findOne
  rw [M.bind_ok (execProcess_ok hp)]
  simp only [ne_eq, not_true, if_false, setAlternativeProducts]
  rw [M.bind_ok (M.modify_run _ _), findOneProducts_iff]
  rfl

/-- **C49** If there are products, the block succeeds iff one of its products leads to success; then the successful one is the last
that was tried. -/
theorem C49_success_iff (proc : Processor P W) (next : M (Request P × W) BlockResult) {s s' : Request P × W} {ps : List P} {w : W}
    {r : BlockResult} (hy : Yields proc s ps w) (hne : ps ≠ []) (h : findOne proc next s = .ok s' r) :
    ¬ r.Fails ↔ ∃ pre p post rs s1 r1, ps = pre ++ p :: post ∧ Tried proc.id next pre (started proc s ps w) rs s1 ∧
      next (s1.1.setCurrent proc.id p, s1.2) = .ok s' r1 ∧ ¬ r1.Fails := by
  rcases (C49_find_one proc next hy).1 h with ⟨pre, p, post, rs, s1, r1, e, ht, hf, hn, hs, rfl⟩ | ⟨rs, ht, hf, rfl⟩
  · exact ⟨fun _ => ⟨pre, p, post, rs, s1, r1, e, ht, hn, hs⟩, fun _ => by simp [BlockResult.Fails, BlockResult.success]⟩
  · constructor
    · intro hr
      exfalso
      cases hl : rs.getLast? with
      | none =>
        rw [List.getLast?_eq_none_iff] at hl
        subst hl; cases ht; exact hne rfl
      | some x =>
        rw [hl] at hr
        exact hr (hf x (List.mem_of_getLast? hl))
    · rintro ⟨pre, p, post, rs', s1, r1, e, ht', hn, hs⟩
      exfalso
      have key : ∀ (pre : List P) (s0 : Request P × W) (rs rs' : List BlockResult) (s1 : Request P × W),
          Tried proc.id next pre s0 rs' s1 → Tried proc.id next (pre ++ p :: post) s0 rs s' →
          next (s1.1.setCurrent proc.id p, s1.2) = .ok s' r1 → r1 ∈ rs := by
        intro pre
        induction pre with
        | nil =>
          intro s0 rs rs' s1 h1 h2 hn
          cases h1
          cases h2 with
          | cons h3 h4 => rw [hn] at h3; simp only [Res.ok.injEq] at h3; simp [h3.2]
        | cons q pre ih =>
          intro s0 rs rs' s1 h1 h2 hn
          cases h1 with
          | cons h3 h4 =>
            cases h2 with
            | cons h5 h6 =>
              rw [h3] at h5
              simp only [Res.ok.injEq] at h5
              obtain ⟨rfl, rfl⟩ := h5
              exact List.mem_cons_of_mem _ (ih _ _ _ _ h4 h6 hn)
      subst e
      exact hs (hf r1 (key pre _ rs rs' s1 ht' ht hn))

/-- **C49**, **C50**, **C51** An error of the processor is the result of the block, and nothing downstream runs. -/
theorem C49_processor_error (b : Block P W) (next : M (Request P × W) BlockResult) {s : Request P × W} {w : W} {r : ProcResult P}
    (h : b.processor.process s.1 s.2 = .ok w r) (he : r.errorType ≠ "") :
    b.process next s = .ok (s.1, w) ⟨r.errorType, r.errorArgs⟩ := by
  unfold Block.process
  cases b.kind <;> simp only [findOne, findAll, tryFirst] <;> rw [M.bind_ok (execProcess_ok h), if_pos he] <;> rfl

/-! ### The current product -/

/-- Running `m` does not change the current products of processors other than `ids`. -/
def KeepsCurrent (ids : List Nat) (m : M (Request P × W) BlockResult) : Prop :=
  ∀ s s' r, m s = .ok s' r → ∀ j, j ∉ ids → s'.1.current j = s.1.current j

theorem Tried.keeps {i : Nat} {next : M (Request P × W) BlockResult} {ids : List Nat} (hn : KeepsCurrent ids next) {ps : List P}
    {s s' : Request P × W} {rs : List BlockResult} (h : Tried i next ps s rs s') : ∀ j, j ∉ i :: ids → s'.1.current j = s.1.current j := by
  induction h with
  | nil => intros; rfl
  | cons h1 _ ih =>
    intro j hj
    simp only [List.mem_cons, not_or] at hj
    rw [ih j (by simp [hj]), hn _ _ _ h1 j hj.2]
    simp [Request.setCurrent, hj.1]

open Classical in
theorem findAllProducts_iff {i : Nat} {next : M (Request P × W) BlockResult} {ps : List P} {ok : Bool} {err r : BlockResult}
    {s s' : Request P × W} :
    findAllProducts i next ps ok err s = .ok s' r ↔
      ∃ rs, Tried i next ps s rs s' ∧
        r = if ok = true ∨ ∃ x ∈ rs, ¬ x.Fails then .success
            else if err.errorType ≠ "" then err else (rs.find? fun x => x.errorType ≠ "").getD err := by
  induction ps generalizing ok err s with
  | nil =>
    simp only [findAllProducts, M.pure_eq_ok]
    constructor
    · rintro ⟨rfl, rfl⟩
      exact ⟨[], .nil _, by simp⟩
    · rintro ⟨rs, h, h2⟩
      cases h; exact ⟨rfl, by simp [h2]⟩
  | cons p ps ih =>
    simp only [findAllProducts, setCurrentProduct]
    rw [M.bind_ok (M.modify_run _ s)]
    have key : ∀ (r1 : BlockResult) (rs : List BlockResult),
        (if ((ok || decide (r1.errorType = "")) = true ∨ ∃ x ∈ rs, ¬ x.Fails) then BlockResult.success
          else if (if r1.errorType ≠ "" ∧ err.errorType = "" then ⟨r1.errorType, r1.errorArgs⟩ else err : BlockResult).errorType ≠ ""
            then (if r1.errorType ≠ "" ∧ err.errorType = "" then ⟨r1.errorType, r1.errorArgs⟩ else err)
            else (rs.find? fun x => x.errorType ≠ "").getD
              (if r1.errorType ≠ "" ∧ err.errorType = "" then ⟨r1.errorType, r1.errorArgs⟩ else err)) =
        (if ok = true ∨ ∃ x ∈ r1 :: rs, ¬ x.Fails then .success
            else if err.errorType ≠ "" then err else ((r1 :: rs).find? fun x => x.errorType ≠ "").getD err) := by
      intro r1 rs
      by_cases h1 : r1.errorType = "" <;> by_cases h2 : err.errorType = "" <;> cases ok <;>
        simp [h1, h2, BlockResult.Fails]
    constructor
    · intro h
      obtain ⟨s1, r1, h1, h2⟩ := M.bind_eq_ok.1 h
      rw [ih] at h2
      obtain ⟨rs, ht, hr⟩ := h2
      exact ⟨r1 :: rs, .cons h1 ht, by rw [hr, key]⟩
    · rintro ⟨rs, ht, hr⟩
      cases ht with
      | cons h1 ht =>
        rename_i r1 rs'
        rw [M.bind_ok h1, ih]
        exact ⟨rs', ht, by rw [hr, key]⟩

open Classical in
/-- **C50** The complete behaviour of a `FindAll` block: the rest of the pipeline runs exactly once for every product, in order; the
products are added to the ones registered before; it succeeds iff some product succeeds, otherwise the first error is the result
(success if there are no products at all). -/
theorem C50_find_all (proc : Processor P W) (next : M (Request P × W) BlockResult) {s s' : Request P × W} {ps : List P} {w : W}
    {r : BlockResult} (hy : Yields proc s ps w) :
    findAll proc next s = .ok s' r ↔
      ∃ rs, Tried proc.id next ps ({ s.1 with alternatives := fun j => if j = proc.id then some ((s.1.alternatives j).getD [] ++ ps) else s.1.alternatives j }, w) rs s' ∧
        ((r = .success ∧ ∃ x ∈ rs, ¬ x.Fails) ∨ ((∀ x ∈ rs, x.Fails) ∧ r = rs.head?.getD .success)) := by
  have hset : ({ s.1 with alternatives := fun j => if j = proc.id then some ((s.1.alternatives j).getD [] ++ ps) else s.1.alternatives j } : Request P) =
      s.1.setAlternatives proc.id (s.1.getAlternatives proc.id ++ ps) := by
    simp only [Request.setAlternatives, Request.getAlternatives]
    congr 1
    funext j
    by_cases h : j = proc.id
    · subst h; simp
    · simp [h]
  rw [hset]
  obtain ⟨args, hp⟩ := hy
  unfold findAll
  rw [M.bind_ok (execProcess_ok hp)]
  simp only [ne_eq, not_true, if_false, setAlternativeProducts]
  rw [M.bind_ok (M.gets_run _ _), M.bind_ok (M.modify_run _ _), findAllProducts_iff]
  have key : ∀ rs : List BlockResult,
      (r = if (false = true ∨ ∃ x ∈ rs, ¬ x.Fails) then BlockResult.success
            else if BlockResult.success.errorType ≠ "" then .success else (rs.find? fun x => x.errorType ≠ "").getD .success) ↔
      ((r = .success ∧ ∃ x ∈ rs, ¬ x.Fails) ∨ ((∀ x ∈ rs, x.Fails) ∧ r = rs.head?.getD .success)) := by
    intro rs
    by_cases he : ∃ x ∈ rs, ¬ x.Fails
    · have : ¬ ∀ x ∈ rs, x.Fails := fun h => by obtain ⟨x, hx, hn⟩ := he; exact hn (h x hx)
      rw [if_pos (.inr he)]
      exact ⟨fun h => .inl ⟨h, he⟩, fun h => h.elim (·.1) fun h => absurd h.1 this⟩
    · have hall : ∀ x ∈ rs, x.Fails := fun x hx => Classical.byContradiction fun h => he ⟨x, hx, h⟩
      have hfind : (rs.find? fun x => x.errorType ≠ "") = rs.head? := by
        cases rs with
        | nil => rfl
        | cons a rs =>
          have : a.errorType ≠ "" := hall a (by simp)
          simp [this]
      rw [if_neg (fun h => h.elim (fun h => Bool.noConfusion h) he), if_neg (by simp [BlockResult.success]), hfind]
      exact ⟨fun h => .inr ⟨hall, h⟩, fun h => h.elim (fun h => absurd h.2 he) (·.2)⟩
  constructor
  · rintro ⟨rs, ht, hr⟩
    exact ⟨rs, ht, (key rs).1 hr⟩
  · rintro ⟨rs, ht, hr⟩
    exact ⟨rs, ht, (key rs).2 hr⟩

/-- **C51** A `TryFirst` block runs the rest of the pipeline for the first product only and returns its outcome. -/
theorem C51_try_first (proc : Processor P W) (next : M (Request P × W) BlockResult) {s : Request P × W} {p : P} {ps : List P} {w : W}
    (hy : Yields proc s (p :: ps) w) :
    tryFirst proc next s = next ((s.1.setAlternatives proc.id (p :: ps)).setCurrent proc.id p, w) := by
  obtain ⟨args, hp⟩ := hy
  unfold tryFirst
  rw [M.bind_ok (execProcess_ok hp)]
  simp only [ne_eq, not_true, if_false, setAlternativeProducts, setCurrentProduct]
  rw [M.bind_ok (M.modify_run _ _), M.bind_ok (M.modify_run _ _)]
  exact congrFun (M.bind_pure next) _

/-- **C51** Without products it succeeds. -/
theorem C51_no_products (proc : Processor P W) (next : M (Request P × W) BlockResult) {s : Request P × W} {w : W}
    (hy : Yields proc s [] w) : tryFirst proc next s = .ok (s.1.setAlternatives proc.id [], w) .success := by
  obtain ⟨args, hp⟩ := hy
  unfold tryFirst
  rw [M.bind_ok (execProcess_ok hp)]
  rfl

/-! ### Which product is current at the end -/

theorem block_keeps (b : Block P W) {next : M (Request P × W) BlockResult} {ids : List Nat} (hn : KeepsCurrent ids next) :
    KeepsCurrent (b.processor.id :: ids) (b.process next) := by
  intro s s' r h j hj
  have hx : ∃ w pr, b.processor.process s.1 s.2 = .ok w pr := by
    unfold Block.process at h
    cases hp : b.processor.process s.1 s.2 with
    | ok w pr => exact ⟨w, pr, rfl⟩
    | err w e =>
      have : execProcess b.processor s = .err (s.1, w) e := by simp [execProcess, onWorld, hp]
      cases hk : b.kind <;> rw [hk] at h <;> simp only [findOne, findAll, tryFirst] at h <;> rw [M.bind_err this] at h <;> simp at h
    | oof =>
      have : execProcess b.processor s = .oof := by simp [execProcess, onWorld, hp]
      cases hk : b.kind <;> rw [hk] at h <;> simp only [findOne, findAll, tryFirst] at h <;> rw [M.bind_run, this] at h <;> simp at h
  obtain ⟨w, pr, hp⟩ := hx
  by_cases he : pr.errorType = ""
  · obtain ⟨ps, et, args⟩ := pr
    simp only at he
    subst he
    have hy : Yields b.processor s ps w := ⟨args, hp⟩
    unfold Block.process at h
    cases hk : b.kind <;> rw [hk] at h <;> simp only at h
    · rcases (C49_find_one b.processor next hy).1 h with ⟨pre, p, post, rs, s1, r1, _, ht, _, h1, _, _⟩ | ⟨rs, ht, _, _⟩
      · simp only [List.mem_cons, not_or] at hj
        rw [hn _ _ _ h1 j hj.2]
        simp only [Request.setCurrent, hj.1, if_false]
        rw [ht.keeps hn j (by simp [hj])]; rfl
      · rw [ht.keeps hn j hj]; rfl
    · obtain ⟨rs, ht, _⟩ := (C50_find_all b.processor next hy).1 h
      rw [ht.keeps hn j hj]
    · cases ps with
      | nil =>
        rw [C51_no_products b.processor next hy] at h
        simp only [Res.ok.injEq] at h
        rw [← h.1]; rfl
      | cons p ps =>
        rw [C51_try_first b.processor next hy] at h
        simp only [List.mem_cons, not_or] at hj
        rw [hn _ _ _ h j hj.2]
        simp [Request.setCurrent, Request.setAlternatives, hj.1]
  · rw [C49_processor_error b next hp he] at h
    simp only [Res.ok.injEq] at h
    rw [← h.1]

theorem runBlocks_keeps (bs : List (Block P W)) : KeepsCurrent (bs.map fun b => b.processor.id) (runBlocks bs) := by
  induction bs with
  | nil =>
    intro s s' r h j _
    simp only [runBlocks, M.pure_eq_ok] at h
    rw [← h.1]
  | cons b bs ih => exact block_keeps b ih

/-- **C49** After a successful `FindOne` block the current product of its processor is the one that led to success, if the blocks
that follow have other processors. -/
theorem C49_current (proc : Processor P W) (bs : List (Block P W)) (hid : proc.id ∉ bs.map fun b => b.processor.id)
    {s s' : Request P × W} {ps : List P} {w : W} {r : BlockResult} (hy : Yields proc s ps w) (hne : ps ≠ [])
    (h : findOne proc (runBlocks bs) s = .ok s' r) (hr : ¬ r.Fails) :
    ∃ pre p post rs s1 r1, ps = pre ++ p :: post ∧ Tried proc.id (runBlocks bs) pre (started proc s ps w) rs s1 ∧
      runBlocks bs (s1.1.setCurrent proc.id p, s1.2) = .ok s' r1 ∧ ¬ r1.Fails ∧ s'.1.current proc.id = some p := by
  obtain ⟨pre, p, post, rs, s1, r1, e, ht, hn, hs⟩ := (C49_success_iff proc _ hy hne h).1 hr
  refine ⟨pre, p, post, rs, s1, r1, e, ht, hn, hs, ?_⟩
  rw [runBlocks_keeps bs _ _ _ hn _ hid]
  simp [Request.setCurrent]

/-! ### Examples and limits -/

/-- A processor with fixed products. -/
def fixedProcessor (i : Nat) (ps : List Nat) : Processor Nat (List Nat) := ⟨i, fun _ => pure ⟨ps, "", []⟩⟩

/-- A processor that records which product it sees and only accepts 3. -/
def picky : Processor Nat (List Nat) :=
  ⟨1, fun r w => match r.current 0 with
    | some 3 => .ok (w ++ [3]) ⟨[30], "", []⟩
    | some k => .ok (w ++ [k]) ⟨[], "bad", [.num k]⟩
    | none => .err w .attributeError⟩

/-- The world and the result of a run. -/
def outcome (m : Res (Request Nat × List Nat) BlockResult) : Option (List Nat × BlockResult × Option Nat × Option (List Nat)) :=
  match m with
  | .ok s r => some (s.2, r, s.1.current 0, s.1.alternatives 0)
  | _ => none

example : Yields (fixedProcessor 0 [1, 2, 3, 4]) (Request.new [], []) [1, 2, 3, 4] [] := ⟨[], rfl⟩

example : outcome (runBlocks [⟨.findOne, fixedProcessor 0 [1, 2, 3, 4]⟩, ⟨.tryFirst, picky⟩] (Request.new [], [])) =
    some ([1, 2, 3], .success, some 3, some [1, 2, 3, 4]) := by decide +kernel

example : outcome (runBlocks [⟨.findAll, fixedProcessor 0 [1, 2, 3, 4]⟩, ⟨.tryFirst, picky⟩] (Request.new [], [])) =
    some ([1, 2, 3, 4], .success, some 4, some [1, 2, 3, 4]) := by decide +kernel

example : outcome (runBlocks [⟨.findAll, fixedProcessor 0 [1, 2, 4]⟩, ⟨.tryFirst, picky⟩] (Request.new [], [])) =
    some ([1, 2, 4], ⟨"bad", [.num 1]⟩, some 4, some [1, 2, 4]) := by decide +kernel

example : outcome (runBlocks [⟨.tryFirst, fixedProcessor 0 [1, 3]⟩, ⟨.tryFirst, picky⟩] (Request.new [], [])) =
    some ([1], ⟨"bad", [.num 1]⟩, some 1, some [1, 3]) := by decide +kernel

/-- **C49** Limit: the documentation says that the first error is returned; it is the last. -/
theorem C49_last_error :
    outcome (runBlocks [⟨.findOne, fixedProcessor 0 [1, 2]⟩, ⟨.tryFirst, picky⟩] (Request.new [], [])) =
      some ([1, 2], ⟨"bad", [.num 2]⟩, some 2, some [1, 2]) := by decide +kernel

/-! ## C52 -/

/-- The parsers of the locales reject the text one after the other. -/
inductive Rejected (parse : String → List Char → M W (ProcResult (Product T))) (text : List Char) : List String → W → W → Prop
  | nil (w) : Rejected parse text [] w w
  | cons {l ls w w1 w2 r} (h : parse l text w = .ok w1 r) (he : r.errorType ≠ "") (t : Rejected parse text ls w1 w2) :
      Rejected parse text (l :: ls) w w2

/-- The two blocks. -/
def languageBlocks (i j : Nat) (locales : List String) (procs : Dict (Processor (Product T) W)) : List (Block (Product T) W) :=
  [⟨.findOne, languageSelector i locales⟩, ⟨.findOne, multilingual j procs i⟩]

theorem multilingual_process {i j : Nat} {procs : Dict (Processor (Product T) W)}
    {parse : String → List Char → M W (ProcResult (Product T))} {l : String}
    (hp : ∃ p, procs.get l = some p ∧ ∀ r, p.process r = parse l r.text) {r : Request (Product T)} (hr : r.current i = some (.locale l)) :
    (multilingual j procs i).process r = parse l r.text := by
  obtain ⟨p, h1, h2⟩ := hp
  simp [multilingual, hr, h1, h2]

/-- **C52** The first locale whose parser accepts the text is chosen: parsers of earlier locales are run once each, in order, later
ones not at all (the world at the end is the one that the accepting parser left), the locale is the selector's current product and the
parser's first tree is the current parse. -/
theorem C52_first_language {i j : Nat} (hij : i ≠ j) {procs : Dict (Processor (Product T) W)}
    {parse : String → List Char → M W (ProcResult (Product T))} {pre post : List String} {l : String}
    (hp : ∀ l' ∈ pre ++ [l], ∃ p, procs.get l' = some p ∧ ∀ r, p.process r = parse l' r.text)
    {text : List Char} {w w1 w2 : W} (hrej : Rejected parse text pre w w1)
    {p : Product T} {ps : List (Product T)} {args : List Value} (hacc : parse l text w1 = .ok w2 ⟨p :: ps, "", args⟩) :
    ∃ req, runBlocks (languageBlocks i j (pre ++ l :: post) procs) (Request.new text, w) = .ok (req, w2) .success ∧
      req.current i = some (.locale l) ∧ req.current j = some p ∧ req.alternatives j = some (p :: ps) := by
  simp only [languageBlocks, runBlocks, Block.process]
  unfold findOne
  have h1 : execProcess (languageSelector (T := T) (W := W) i (pre ++ l :: post)) (Request.new text, w) =
      .ok (Request.new text, w) ⟨(pre ++ l :: post).map .locale, "", []⟩ := rfl
  rw [M.bind_ok h1]
  simp only [ne_eq, not_true, if_false, setAlternativeProducts]
  rw [M.bind_ok (M.modify_run _ _)]
  clear h1
  have key : ∀ (req : Request (Product T)) (last : BlockResult), req.text = text →
      ∃ req', findOneProducts i (findOne (multilingual j procs i) (pure .success)) ((pre ++ l :: post).map .locale) last (req, w) =
        .ok (req', w2) .success ∧ req'.current i = some (.locale l) ∧ req'.current j = some p ∧
        req'.alternatives j = some (p :: ps) := by
    induction hrej with
    | nil w =>
      intro req last htext
      have hproc : (multilingual j procs i).process (req.setCurrent i (.locale l)) w = .ok w2 ⟨p :: ps, "", args⟩ := by
        rw [multilingual_process (hp l (by simp)) (by simp [Request.setCurrent])]
        show parse l req.text w = _
        rw [htext]; exact hacc
      simp only [List.nil_append, List.map_cons, findOneProducts, setCurrentProduct]
      rw [M.bind_ok (M.modify_run _ _)]
      unfold findOne
      have hx : execProcess (multilingual j procs i) (req.setCurrent i (.locale l), w) =
          .ok (req.setCurrent i (.locale l), w2) ⟨p :: ps, "", args⟩ := execProcess_ok hproc
      refine ⟨((req.setCurrent i (.locale l)).setAlternatives j (p :: ps)).setCurrent j p, ?_, ?_, ?_, ?_⟩
      · rw [M.bind_run, M.bind_ok hx]; rfl
      · simp [Request.setCurrent, Request.setAlternatives, hij]
      · simp [Request.setCurrent]
      · simp [Request.setCurrent, Request.setAlternatives]
    | @cons l' ls w w' w1 r h he t ih =>
      intro req last htext
      have hproc : (multilingual j procs i).process (req.setCurrent i (.locale l')) w = .ok w' r := by
        rw [multilingual_process (hp l' (by simp)) (by simp [Request.setCurrent])]
        show parse l' req.text w = _
        rw [htext]; exact h
      obtain ⟨req', h2, h3⟩ := ih (fun l' hl => hp l' (List.mem_cons_of_mem _ hl)) hacc (req.setCurrent i (.locale l'))
        ⟨r.errorType, r.errorArgs⟩ htext
      refine ⟨req', ?_, h3⟩
      simp only [List.cons_append, List.map_cons, findOneProducts, setCurrentProduct]
      rw [M.bind_ok (M.modify_run _ _)]
      have hx : findOne (multilingual j procs i) (pure .success) (req.setCurrent i (.locale l'), w) =
          .ok (req.setCurrent i (.locale l'), w') ⟨r.errorType, r.errorArgs⟩ := by
        unfold findOne
        rw [M.bind_ok (execProcess_ok (s := (req.setCurrent i (.locale l'), w)) hproc), if_pos he]; rfl
      rw [M.bind_ok hx, if_neg he]
      exact h2
  exact key _ _ rfl

/-- Going past the locales that reject the text. -/
theorem rejected_skip {i j : Nat} {procs : Dict (Processor (Product T) W)}
    {parse : String → List Char → M W (ProcResult (Product T))} {pre : List String}
    (hp : ∀ l' ∈ pre, ∃ p, procs.get l' = some p ∧ ∀ r, p.process r = parse l' r.text)
    {text : List Char} {w w1 : W} (hrej : Rejected parse text pre w w1) (rest : List (Product T)) :
    ∀ (req : Request (Product T)) (last : BlockResult), req.text = text → ∃ req' last', req'.text = text ∧
      findOneProducts i (findOne (multilingual j procs i) (pure .success)) (pre.map .locale ++ rest) last (req, w) =
        findOneProducts i (findOne (multilingual j procs i) (pure .success)) rest last' (req', w1) ∧
      (pre = [] → last' = last) ∧ (pre ≠ [] → ∃ l w0 r, pre.getLast? = some l ∧ parse l text w0 = .ok w1 r ∧ last' = ⟨r.errorType, r.errorArgs⟩ ∧ r.errorType ≠ "") := by
  induction hrej with
  | nil w => exact fun req last ht => ⟨req, last, ht, rfl, fun _ => rfl, by simp⟩
  | @cons l' ls w w' w1 r h he t ih =>
    intro req last htext
    have hproc : (multilingual j procs i).process (req.setCurrent i (.locale l')) w = .ok w' r := by
      rw [multilingual_process (hp l' (by simp)) (by simp [Request.setCurrent])]
      show parse l' req.text w = _
      rw [htext]; exact h
    obtain ⟨req', last', h1, h2, h5, h3⟩ := ih (fun l' hl => hp l' (List.mem_cons_of_mem _ hl)) (req.setCurrent i (.locale l'))
      ⟨r.errorType, r.errorArgs⟩ htext
    refine ⟨req', last', h1, ?_, by simp, ?_⟩
    · simp only [List.cons_append, List.map_cons, findOneProducts, setCurrentProduct]
      rw [M.bind_ok (M.modify_run _ _)]
      have hx : findOne (multilingual j procs i) (pure .success) (req.setCurrent i (.locale l'), w) =
          .ok (req.setCurrent i (.locale l'), w') ⟨r.errorType, r.errorArgs⟩ := by
        unfold findOne
        rw [M.bind_ok (execProcess_ok (s := (req.setCurrent i (.locale l'), w)) hproc), if_pos he]; rfl
      rw [M.bind_ok hx, if_neg he]
      exact h2
    · intro _
      cases ls with
      | nil => cases t; exact ⟨l', w, r, rfl, h, h5 rfl, he⟩
      | cons l2 ls2 =>
        obtain ⟨l, w0, r0, g1, g2, g3, g4⟩ := h3 (by simp)
        exact ⟨l, w0, r0, by simpa [List.getLast?_cons] using g1, g2, g3, g4⟩

/-- **C52** A listed locale that has no parser raises an exception when its turn comes; the world is the one that the rejecting parsers
left. -/
theorem C52_missing_parser {i j : Nat} {procs : Dict (Processor (Product T) W)}
    {parse : String → List Char → M W (ProcResult (Product T))} {pre post : List String} {l : String}
    (hp : ∀ l' ∈ pre, ∃ p, procs.get l' = some p ∧ ∀ r, p.process r = parse l' r.text) (hl : procs.get l = none)
    {text : List Char} {w w1 : W} (hrej : Rejected parse text pre w w1) :
    ∃ req msg, runBlocks (languageBlocks i j (pre ++ l :: post) procs) (Request.new text, w) = .err (req, w1) (.exception msg) := by
  simp only [languageBlocks, runBlocks, Block.process]
  unfold findOne
  have h1 : execProcess (languageSelector (T := T) (W := W) i (pre ++ l :: post)) (Request.new text, w) =
      .ok (Request.new text, w) ⟨(pre ++ l :: post).map .locale, "", []⟩ := rfl
  rw [M.bind_ok h1]
  simp only [ne_eq, not_true, if_false, setAlternativeProducts]
  rw [M.bind_ok (M.modify_run _ _)]
  rw [List.map_append, List.map_cons]
  obtain ⟨req', last', _, h2, _, _⟩ := rejected_skip (i := i) (j := j) hp hrej (.locale l :: post.map .locale)
    ((Request.new text).setAlternatives i (pre.map .locale ++ .locale l :: post.map .locale)) .success rfl
  refine ⟨req'.setCurrent i (.locale l), "No processor available for locale", ?_⟩
  show findOneProducts i (findOne (multilingual j procs i) (pure .success)) _ _ _ = _
  refine h2.trans ?_
  simp only [findOneProducts, setCurrentProduct]
  rw [M.bind_ok (M.modify_run _ _)]
  refine M.bind_err ?_
  unfold findOne
  refine M.bind_err ?_
  simp [execProcess, onWorld, multilingual, Request.setCurrent, hl, M.throw]

/-- **C52** If the parser of every listed locale rejects the text, the error is that of the last one, and every parser was run once. -/
theorem C52_none_accepts {i j : Nat} {procs : Dict (Processor (Product T) W)}
    {parse : String → List Char → M W (ProcResult (Product T))} {locales : List String} (hne : locales ≠ [])
    (hp : ∀ l' ∈ locales, ∃ p, procs.get l' = some p ∧ ∀ r, p.process r = parse l' r.text)
    {text : List Char} {w w1 : W} (hrej : Rejected parse text locales w w1) :
    ∃ req l w0 r, locales.getLast? = some l ∧ parse l text w0 = .ok w1 r ∧ r.errorType ≠ "" ∧
      runBlocks (languageBlocks i j locales procs) (Request.new text, w) = .ok (req, w1) ⟨r.errorType, r.errorArgs⟩ := by
  simp only [languageBlocks, runBlocks, Block.process]
  unfold findOne
  have h1 : execProcess (languageSelector (T := T) (W := W) i locales) (Request.new text, w) =
      .ok (Request.new text, w) ⟨locales.map .locale, "", []⟩ := rfl
  rw [M.bind_ok h1]
  simp only [ne_eq, not_true, if_false, setAlternativeProducts]
  rw [M.bind_ok (M.modify_run _ _)]
  obtain ⟨req', last', _, h2, _, h3⟩ := rejected_skip (i := i) (j := j) hp hrej []
    ((Request.new text).setAlternatives i (locales.map .locale)) .success rfl
  obtain ⟨l, w0, r, g1, g2, g3, g4⟩ := h3 hne
  refine ⟨req', l, w0, r, g1, g2, g4, ?_⟩
  show findOneProducts i (findOne (multilingual j procs i) (pure .success)) _ _ _ = _
  rw [List.append_nil] at h2
  refine h2.trans ?_
  rw [g3]; rfl

/-- Two locales; the first parser rejects everything. -/
def demoParse : String → List Char → M (List String) (ProcResult (Product Nat)) :=
  fun l _ w => if l = "nl" then .ok (w ++ [l]) ⟨[], "not_understood", []⟩ else .ok (w ++ [l]) ⟨[.parse 7, .parse 8], "", []⟩

/-- The processors of the locales. -/
def demoProcs : Dict (Processor (Product Nat) (List String)) :=
  [("nl", ⟨5, fun r => demoParse "nl" r.text⟩), ("en", ⟨6, fun r => demoParse "en" r.text⟩)]

example : (∀ l' ∈ ["nl"] ++ ["en"], ∃ p, demoProcs.get l' = some p ∧ ∀ r, p.process r = demoParse l' r.text) ∧
    Rejected demoParse ['h', 'i'] ["nl"] [] ["nl"] ∧
    demoParse "en" ['h', 'i'] ["nl"] = .ok ["nl", "en"] ⟨[.parse 7, .parse 8], "", []⟩ := by
  refine ⟨?_, .cons (r := ⟨[], "not_understood", []⟩) rfl (by decide) (.nil _), rfl⟩
  intro l' hl
  simp only [List.cons_append, List.nil_append, List.mem_cons, List.not_mem_nil, or_false] at hl
  rcases hl with rfl | rfl
  · exact ⟨_, rfl, fun _ => rfl⟩
  · exact ⟨_, rfl, fun _ => rfl⟩

example : (∀ l' ∈ ["nl"], ∃ p, demoProcs.get l' = some p ∧ ∀ r, p.process r = demoParse l' r.text) ∧ demoProcs.get "fr" = none ∧
    Rejected demoParse ['h', 'i'] ["nl"] [] ["nl"] := by
  refine ⟨?_, rfl, .cons (r := ⟨[], "not_understood", []⟩) rfl (by decide) (.nil _)⟩
  intro l' hl
  simp only [List.mem_singleton] at hl
  subst hl
  exact ⟨_, rfl, fun _ => rfl⟩

/-! ## C54 -/

/-- The atoms are written one after the other. -/
inductive Written (api : SolverApi W) : List Value → W → W → Prop
  | nil (w) : Written api [] w w
  | cons {a as w w1 w2} (h : api.writeAtom a w = .ok w1 ()) (t : Written api as w1 w2) : Written api (a :: as) w w2

theorem writeAll_ok {api : SolverApi W} {as : List Value} {w w' : W} : writeAll api as w = .ok w' () ↔ Written api as w w' := by
  induction as generalizing w with
  | nil =>
    simp only [writeAll, M.pure_eq_ok, and_true]
    exact ⟨fun h => h ▸ .nil _, fun h => by cases h; rfl⟩
  | cons a as ih =>
    simp only [writeAll, M.bind_eq_ok]
    constructor
    · rintro ⟨w1, u, h1, h2⟩
      exact .cons h1 (ih.1 h2)
    · intro h
      cases h with
      | cons h1 h2 => exact ⟨_, _, h1, ih.2 h2⟩

theorem writeAll_err {api : SolverApi W} {as : List Value} {w w' : W} {e : Err} :
    writeAll api as w = .err w' e ↔
      ∃ pre a post w1, as = pre ++ a :: post ∧ Written api pre w w1 ∧ api.writeAtom a w1 = .err w' e := by
  induction as generalizing w with
  | nil => simp [writeAll]
  | cons a as ih =>
    simp only [writeAll]
    rw [M.bind_run]
    constructor
    · intro h
      cases h1 : api.writeAtom a w with
      | oof => simp [h1] at h
      | err w1 e1 =>
        simp only [h1] at h
        exact ⟨[], a, as, w, rfl, .nil _, h1.trans h⟩
      | ok w1 u =>
        simp only [h1] at h
        obtain ⟨pre, a', post, w2, e1, e2, e3⟩ := ih.1 h
        exact ⟨a :: pre, a', post, w2, by simp [e1], .cons h1 e2, e3⟩
    · rintro ⟨pre, a', post, w1, e1, e2, e3⟩
      cases e2 with
      | nil =>
        simp only [List.nil_append, List.cons.injEq] at e1
        obtain ⟨rfl, rfl⟩ := e1
        rw [e3]
      | cons h1 h2 =>
        simp only [List.cons_append, List.cons.injEq] at e1
        obtain ⟨rfl, rfl⟩ := e1
        rw [h1]
        exact ih.2 ⟨_, _, _, _, rfl, h2, e3⟩

/-- **C54** The executor returns iff it has written all inferences in order, then solved the executable atoms, then the last iteration of
the semantics, each once and each in the world that the previous one left; the product holds the answers of the last step. -/
theorem C54_order (i c : Nat) (api : SolverApi W) {r : Request (Product T)} {p : ComposerProduct} (hr : r.current c = some (.composed p))
    {w w' : W} {out : ProcResult (Product T)} :
    (atomExecutor i c api).process r w = .ok w' out ↔
      ∃ w1 w2 o bindings, Written api p.inferences w w1 ∧ api.solve p.executable [] w1 = .ok w2 o ∧
        api.solve p.lastIteration [] w2 = .ok w' bindings ∧ out = ⟨[.executed bindings], "", []⟩ := by
  simp only [atomExecutor, hr, M.bind_eq_ok, M.pure_eq_ok]
  constructor
  · rintro ⟨w1, u, h1, w2, o, h2, w3, b, h3, rfl, rfl⟩
    exact ⟨w1, w2, o, b, writeAll_ok.1 h1, h2, h3, rfl⟩
  · rintro ⟨w1, w2, o, b, h1, h2, h3, rfl⟩
    exact ⟨w1, (), writeAll_ok.2 h1, w2, o, h2, w', b, h3, rfl, rfl⟩

/-- **C54** It raises iff one of the steps raises after the steps before it have ended normally; no later step runs (the world is the one
at the time of the exception). -/
theorem C54_exception (i c : Nat) (api : SolverApi W) {r : Request (Product T)} {p : ComposerProduct}
    (hr : r.current c = some (.composed p)) {w w' : W} {e : Err} :
    (atomExecutor i c api).process r w = .err w' e ↔
      (∃ pre a post w1, p.inferences = pre ++ a :: post ∧ Written api pre w w1 ∧ api.writeAtom a w1 = .err w' e) ∨
      (∃ w1, Written api p.inferences w w1 ∧ api.solve p.executable [] w1 = .err w' e) ∨
      (∃ w1 w2 o, Written api p.inferences w w1 ∧ api.solve p.executable [] w1 = .ok w2 o ∧
        api.solve p.lastIteration [] w2 = .err w' e) := by
  rw [← writeAll_err]
  simp only [← writeAll_ok]
  simp only [atomExecutor, hr]
  rw [M.bind_run]
  cases h1 : writeAll api p.inferences w with
  | oof => simp
  | err w1 e1 => simp
  | ok w1 u =>
    cases u
    simp only [Res.ok.injEq, and_true, exists_eq_left', exists_and_left, reduceCtorEq, false_or]
    rw [M.bind_run]
    cases h2 : api.solve p.executable [] w1 with
    | oof => simp
    | err w2 e2 => simp
    | ok w2 o =>
      simp only [Res.ok.injEq, reduceCtorEq, false_or]
      rw [M.bind_run]
      constructor
      · intro h
        refine ⟨w2, o, ⟨rfl, rfl⟩, ?_⟩
        cases h3 : api.solve p.lastIteration [] w2 with
        | oof => simp [h3] at h
        | err w3 e3 => simpa [h3] using h
        | ok w3 b => simp [h3] at h
      · rintro ⟨w2', o', ⟨rfl, rfl⟩, h⟩
        simp [h]

/-- **C54** The semantics that is executed is the last one in the list of iterations. -/
theorem C54_last_iteration (its : List (String × Value)) (d : String) (v : Value) (inf : List Value) (ex : Value) (rv : List String) :
    (ComposerProduct.mk (its ++ [(d, v)]) inf ex rv).lastIteration = v := by
  simp [ComposerProduct.lastIteration, List.foldl_append]

/-! ## C53 -/

mutual
theorem bindVars_empty (v : Value) : bindVars [] v = v := by
  cases v with
  | list vs => simp only [bindVars, bindVarsList_empty vs]
  | tuple vs => simp only [bindVars, bindVarsList_empty vs]
  | _ => rfl
theorem bindVarsList_empty (vs : List Value) : bindVarsList [] vs = vs := by
  cases vs with
  | nil => rfl
  | cons v vs => simp only [bindVarsList, bindVars_empty v, bindVarsList_empty vs]
end

/-- **C53** (partial: only for the error types that the output buffer knows) When the pipeline reports an error of type `t` and
the output buffer has a relation `output_t`, `enter` does not raise, and afterwards the buffer holds what it held before, the type
of the error and its arguments. -/
theorem C53_error_stored_partial {ms : List (Module W)} {l : Lens W SimpleStore} {s s1 : Request P × W} (hm : StoresIn ms l outputRelations s1.2)
    (blocks : List (Block P W)) (hne : blocks ≠ []) {r : BlockResult} (hrun : runBlocks blocks s = .ok s1 r)
    (hr : r.Fails) {cs : List String} (ht : outputRelations.get ("output_" ++ r.errorType) = some cs) (n : Nat)
    {log : List LogRecord} (hlog : Represents (l.get s1.2) log) :
    ∃ w, enter (solverAt (modelOf ms) (n + 2)) blocks s = .ok (s1.1, w) none ∧
      Represents (l.get w)
        (log ++ [⟨"output_type", ["type"], [.str r.errorType]⟩, ⟨"output_" ++ r.errorType, cs, r.errorArgs⟩]) := by
  obtain ⟨last, hl⟩ : ∃ last, blocks.getLast? = some last := by
    cases h : blocks.getLast? with
    | none => exact absurd (List.getLast?_eq_none_iff.1 h) hne
    | some x => exact ⟨x, rfl⟩
  have hst := C18_store hm (atoms := [("output_type", [.str r.errorType]), ("output_" ++ r.errorType, r.errorArgs)])
    (by
      intro a ha
      simp only [List.mem_cons, List.not_mem_nil, or_false] at ha
      rcases ha with rfl | rfl
      · rfl
      · simp [Dict.has, ht]) [] n
  have hrep := storeAll_represents l outputRelations []
    [("output_type", [.str r.errorType]), ("output_" ++ r.errorType, r.errorArgs)] s1.2 hlog
  refine ⟨storeAll l outputRelations [] [("output_type", [.str r.errorType]), ("output_" ++ r.errorType, r.errorArgs)] s1.2, ?_, ?_⟩
  rotate_left
  · have e : r.errorArgs.map (bindVars []) = r.errorArgs := by
      rw [← bindVarsList_eq_map, bindVarsList_empty]
    simp only [List.map_cons, List.map_nil, ht, Option.getD_some, e, bindVars_empty] at hrep
    exact hrep
  · unfold enter
    simp only [hl]
    rw [M.bind_ok hrun, if_pos (show r.errorType ≠ "" from hr)]
    have : onWorld (A := Request P) ((solverAt (modelOf ms) (n + 2)).solve (.list [.tuple [.str "store", .list
        [.tuple [.str "output_type", .str r.errorType],
         .tuple (.str ("output_" ++ r.errorType) :: r.errorArgs)]]]) []) s1 =
        .ok (s1.1, storeAll l outputRelations []
          [("output_type", [.str r.errorType]), ("output_" ++ r.errorType, r.errorArgs)] s1.2) (.rows [[]]) := by
      simp only [onWorld]
      have h := hst
      simp only [storeQuery, toQuery, List.map_cons, List.map_nil, toAtom] at h
      rw [h]
    rw [M.bind_ok this]; rfl

/-- The report of an error of a type without a relation. -/
theorem report_unregistered {ms : List (Module W)} {l : Lens W SimpleStore} {w : W} (hm : StoresIn ms l outputRelations w) {type : String} {args' : List Value}
    (ht : ∀ x, findRelations (modelOf ms) (l.put x w) ("output_" ++ type) = []) (n : Nat) :
    (solverAt (modelOf ms) (n + 2)).solve (.list [.tuple [.str "store", .list
      [.tuple [.str "output_type", .str type], .tuple (.str ("output_" ++ type) :: args')]]]) [] w =
      .err (l.put ((l.get w).insert "output_type" ["type"] [.str type]) w) (.exception "No relation available in the model") := by
  rw [solve_core (f := coreStore) hm.store_here (by rfl) (by decide)]
  generalize hargs : ([.list [.tuple [.str "output_type", .str type],
       .tuple (.str ("output_" ++ type) :: args')]] : List Value) = args
  have hc : coreStore (dbValues args []) ⟨"store", [], args, [], solverAt (modelOf ms) (n + 1)⟩ w =
      .err (l.put ((l.get w).insert "output_type" ["type"] [.str type]) w)
      (.exception "No relation available in the model") := by
    have hdb : dbValues args [] = args := by subst hargs; rfl
    rw [hdb]
    unfold coreStore
    subst hargs
    simp only [nth, List.getElem?_cons_zero]
    rw [M.bind_ok (M.pure_run _ _)]
    simp only [bindVars, bindVarsList, storeLoop]
    have h1 : (solverAt (modelOf ms) (n + 1)).writeAtom (.tuple [.str "output_type", .str type]) w =
        .ok (l.put ((l.get w).insert "output_type" ["type"] [.str type]) w) () := by
      show writeAtom.go _ _ "output_type" _ w = _
      unfold writeAtom.go
      rw [M.bind_ok (M.gets_run _ _), hm.rels_here (p := "output_type") (cs := ["type"]) rfl]
      rfl
    have h2 : ∀ x, (solverAt (modelOf ms) (n + 1)).writeAtom (.tuple (.str ("output_" ++ type) :: bindVarsList [] args')) (l.put x w) =
        .err (l.put x w) (.exception "No relation available in the model") := by
      intro x
      show writeAtom.go _ _ ("output_" ++ type) _ (l.put x w) = _
      unfold writeAtom.go
      rw [M.bind_ok (M.gets_run _ _), ht x]
      rfl
    rw [M.bind_run, M.bind_ok h1, M.bind_err (h2 _)]
  rw [hc]

/-- **C53** Limit: for an error type without a relation in the model, `enter` raises; the type has been stored, the arguments have
not. -/
theorem C53_unregistered_raises {ms : List (Module W)} {l : Lens W SimpleStore} {s s1 : Request P × W} (hm : StoresIn ms l outputRelations s1.2)
    (blocks : List (Block P W)) (hne : blocks ≠ []) {r : BlockResult} (hrun : runBlocks blocks s = .ok s1 r)
    (hr : r.Fails) (ht : ∀ x, findRelations (modelOf ms) (l.put x s1.2) ("output_" ++ r.errorType) = []) (n : Nat) :
    enter (solverAt (modelOf ms) (n + 2)) blocks s =
      .err (s1.1, l.put ((l.get s1.2).insert "output_type" ["type"] [.str r.errorType]) s1.2)
        (.exception "No relation available in the model") := by
  obtain ⟨last, hl⟩ : ∃ last, blocks.getLast? = some last := by
    cases h : blocks.getLast? with
    | none => exact absurd (List.getLast?_eq_none_iff.1 h) hne
    | some x => exact ⟨x, rfl⟩
  unfold enter
  simp only [hl]
  rw [M.bind_ok hrun, if_pos (show r.errorType ≠ "" from hr)]
  have hs := report_unregistered hm (args' := r.errorArgs) ht n
  have hs' : onWorld (A := Request P) ((solverAt (modelOf ms) (n + 2)).solve (.list [.tuple [.str "store", .list
        [.tuple [.str "output_type", .str r.errorType],
         .tuple (.str ("output_" ++ r.errorType) :: r.errorArgs)]]]) []) s1 =
      .err (s1.1, l.put ((l.get s1.2).insert "output_type" ["type"] [.str r.errorType]) s1.2)
        (.exception "No relation available in the model") := by
    simp only [onWorld, hs]
  rw [M.bind_err hs']

/-- A model of the output buffer alone. -/
def bufferMods : List (Module SimpleStore) := [outputBuffer (Lens.id _)]

theorem bufferMods_storesIn (w : SimpleStore) : StoresIn bufferMods (Lens.id _) outputRelations w where
  store := by intro w m hm; simp only [bufferMods, List.mem_singleton] at hm; subst hm; rfl
  rels := by
    intro w p cs h
    have hc : (coreTable SimpleStore).get p = none := by
      have hp : p ∈ outputRelations.map Prod.fst := List.mem_map.2 ⟨_, Dict.mem_of_get h, rfl⟩
      simp only [outputRelations, List.map_cons, List.map_nil, List.mem_cons, List.not_mem_nil, or_false] at hp
      rcases hp with rfl | rfl | rfl | rfl | rfl | rfl | rfl <;> rfl
    simp [findRelations, modelOf, bufferMods, outputBuffer, memoryModule, coreModule, h, hc]

/-- **C53** Limit: two of the parser's three error types have no relation. -/
theorem C53_not_understood : (∀ w, findRelations (modelOf bufferMods) w ("output_" ++ "not_understood") = []) ∧
    (∀ w, findRelations (modelOf bufferMods) w ("output_" ++ "no_sentence") = []) ∧
    outputRelations.get ("output_" ++ "unknown_word") = some ["word"] := by
  refine ⟨fun w => rfl, fun w => rfl, by decide +kernel⟩

end Verif
