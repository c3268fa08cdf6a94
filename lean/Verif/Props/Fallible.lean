import Verif.Refine
import Verif.SqlMemory
import Verif.Props.SqlMemory
import Verif.Props.OptimisedText

/-!
# C91: data sources that may fail

A module that reads its facts from a database, a server or a file may raise an exception instead of answering, or not answer. Whatever is
returned by a query, or for a text, over such modules is right all the same: a failure is never taken for "there are no facts".
-/

namespace Verif

section
variable {W : Type} {ar : String → Option Nat} {tables : List (Dict (List (List Value)))} {rs : List HornRule}

/-- What the relation returns, if it returns, are the rows that agree with the values asked for, and the world is as it was. It may raise, or not return. -/
def FallibleTable (r : Relation W) (w : W) (rows : List (List Value)) : Prop :=
  ∀ values ctx w' out, r.query values ctx w = .ok w' out → w' = w ∧ out = .rows (rows.filter (rowMatches values))

/-- For the predicates in `ar`, the module has in this world a relation exactly for the tables in `db`, which reads from the rows of the table, but may
fail. -/
def FallibleModule (ar : String → Option Nat) (w : W) (m : Module W) (db : Dict (List (List Value))) : Prop :=
  ∀ p k, ar p = some k → match db.get p with
    | none => m.relations w p = none
    | some rows => ∃ r, m.relations w p = some r ∧ FallibleTable r w rows

/-- Module by module. -/
def FallibleModules (ar : String → Option Nat) (w : W) : List (Module W) → List (Dict (List (List Value))) → Prop
  | [], [] => True
  | m :: ms, db :: dbs => FallibleModule ar w m db ∧ FallibleModules ar w ms dbs
  | _, _ => False

/-- A model like `KnowledgeBase`, in which the modules with the stored rows may fail. Their functions do not catch exceptions of the solver. -/
structure FallibleBase (W : Type) (ar : String → Option Nat) (tables : List (Dict (List (List Value)))) (rs : List HornRule) where
  lens : Lens W InfState
  world : W
  before : List (Module W)
  after : List (Module W)
  dbs : List (Dict (List (List Value)))
  dbs' : List (Dict (List (List Value)))
  split : tables = dbs ++ dbs'
  facts : FallibleModules ar world before dbs
  facts' : FallibleModules ar world after dbs'
  forwards : ∀ m ∈ before ++ after, m.Forwards
  ok : ProgramOk W ar tables rs
  inserted : insertAll (rs.map HornRule.toRule) InfState.init = .ok (lens.get world)

/-- The modules besides the core module. -/
def FallibleBase.others (K : FallibleBase W ar tables rs) : List (Module W) := K.before ++ inferenceModule K.lens :: K.after

/-- All modules (`Model.py:13-14`). -/
def FallibleBase.modules (K : FallibleBase W ar tables rs) : List (Module W) := modelOf K.others

/-! ### The proof: in place of failing, give the rows -/

/-- The relation, that gives the rows where it would fail. -/
def mendRelation (rows : List (List Value)) (r : Relation W) : Relation W :=
  { r with query := fun values ctx w => match r.query values ctx w with
      | .ok w' out => .ok w' out
      | _ => .ok w (.rows (rows.filter (rowMatches values))) }

/-- The module, with such relations. -/
def mend (db : Dict (List (List Value))) (m : Module W) : Module W where
  relations := fun w p => (m.relations w p).map fun r => match db.get p with
    | none => r
    | some rows => mendRelation rows r

theorem mend_ref {db : Dict (List (List Value))} {m : Module W} (h : m.Forwards) : m.Ref (mend db m) := by
  intro w p
  cases e : m.relations w p with
  | none => simp [mend, e]
  | some r =>
    have hr := h w p r e
    simp only [mend, e, Option.map_some]
    cases db.get p with
    | none => exact hr
    | some rows =>
      refine ⟨rfl, rfl, rfl, rfl, fun vs p' c args bd a a' ha w1 w2 o ho => ?_, hr.write⟩
      simp only [mendRelation, hr.query vs p' c args bd a a' ha w1 w2 o ho]

theorem mend_fact {w : W} {m : Module W} {db : Dict (List (List Value))} (h : FallibleModule ar w m db) : FactModule ar w (mend db m) db := by
  intro p k hp
  have h1 := h p k hp
  cases e : db.get p with
  | none => rw [e] at h1; simp only [mend, h1, Option.map_none]
  | some rows =>
    rw [e] at h1
    obtain ⟨r, e1, e2⟩ := h1
    refine ⟨mendRelation rows r, by simp only [mend, e1, e, Option.map_some], fun vs ctx => ?_⟩
    simp only [mendRelation]
    split
    · rename_i w' out ho
      obtain ⟨rfl, rfl⟩ := e2 vs ctx w' out ho
      rfl
    · rfl

/-- Module by module. -/
def mendAll : List (Dict (List (List Value))) → List (Module W) → List (Module W)
  | db :: dbs, m :: ms => mend db m :: mendAll dbs ms
  | _, _ => []

theorem mendAll_fact {w : W} {ms : List (Module W)} {dbs : List (Dict (List (List Value)))} (h : FallibleModules ar w ms dbs) :
    FactModules ar w (mendAll dbs ms) dbs := by
  induction ms generalizing dbs with
  | nil => cases dbs with
    | nil => trivial
    | cons => exact h.elim
  | cons m ms ih => cases dbs with
    | nil => exact h.elim
    | cons db dbs => exact ⟨mend_fact h.1, ih h.2⟩

theorem mendAll_ref {w : W} {ms : List (Module W)} {dbs : List (Dict (List (List Value)))} (h : FallibleModules ar w ms dbs) (hf : ∀ m ∈ ms, m.Forwards) :
    ModsRef ms (mendAll dbs ms) := by
  induction ms generalizing dbs with
  | nil => cases dbs with
    | nil => trivial
    | cons => exact h.elim
  | cons m ms ih => cases dbs with
    | nil => exact h.elim
    | cons db dbs => exact ⟨mend_ref (hf m (by simp)), ih h.2 fun m' hm => hf m' (List.mem_cons_of_mem _ hm)⟩

theorem ModsRef.append {ms ms' ns ns' : List (Module W)} (h : ModsRef ms ms') (h' : ModsRef ns ns') : ModsRef (ms ++ ns) (ms' ++ ns') := by
  induction ms generalizing ms' with
  | nil => cases ms' with
    | nil => exact h'
    | cons => exact h.elim
  | cons m ms ih => cases ms' with
    | nil => exact h.elim
    | cons m' ms' => exact ⟨h.1, ih h.2⟩

/-- The knowledge base without failures. -/
def FallibleBase.mended (K : FallibleBase W ar tables rs) : KnowledgeBase W ar tables rs where
  lens := K.lens
  world := K.world
  before := mendAll K.dbs K.before
  after := mendAll K.dbs' K.after
  dbs := K.dbs
  dbs' := K.dbs'
  split := K.split
  facts := mendAll_fact K.facts
  facts' := mendAll_fact K.facts'
  ok := K.ok
  inserted := K.inserted

theorem FallibleBase.ref (K : FallibleBase W ar tables rs) : ModsRef K.modules K.mended.modules :=
  ⟨coreModule_forwards.ref, (mendAll_ref K.facts fun m hm => K.forwards m (List.mem_append_left _ hm)).append
    ⟨(inferenceModule_forwards _).ref, mendAll_ref K.facts' fun m hm => K.forwards m (List.mem_append_right _ hm)⟩⟩

theorem mem_mendAll {dbs : List (Dict (List (List Value)))} {ms : List (Module W)} {m : Module W} (h : m ∈ mendAll dbs ms) :
    ∃ m' ∈ ms, ∃ db, m = mend db m' := by
  induction ms generalizing dbs with
  | nil => cases dbs <;> simp [mendAll] at h
  | cons m' ms ih => cases dbs with
    | nil => simp [mendAll] at h
    | cons db dbs =>
      simp only [mendAll, List.mem_cons] at h
      rcases h with rfl | h
      · exact ⟨m', by simp, db, rfl⟩
      · obtain ⟨m2, h1, h2⟩ := ih h
        exact ⟨m2, List.mem_cons_of_mem _ h1, h2⟩

theorem FallibleBase.mem_mended (K : FallibleBase W ar tables rs) {m : Module W} (h : m ∈ K.mended.others) :
    m ∈ K.others ∨ ∃ m' ∈ K.others, ∃ db, m = mend db m' := by
  simp only [KnowledgeBase.others, FallibleBase.mended, List.mem_append, List.mem_cons] at h
  simp only [FallibleBase.others, List.mem_append, List.mem_cons]
  rcases h with h | h | h
  · obtain ⟨m', h1, h2⟩ := mem_mendAll h; exact .inr ⟨m', .inl h1, h2⟩
  · exact .inl (.inr (.inl h))
  · obtain ⟨m', h1, h2⟩ := mem_mendAll h; exact .inr ⟨m', .inr (.inr h1), h2⟩

theorem FallibleBase.mended_core (K : FallibleBase W ar tables rs) (hcore : ∀ p ∈ coreNames, NotDefined K.others K.world p) :
    ∀ p ∈ coreNames, NotDefined K.mended.others K.mended.world p := by
  intro p hp m hm
  rcases K.mem_mended hm with h | ⟨m', h, db, rfl⟩
  · exact hcore p hp m h
  · show ((m'.relations K.world p).map _) = none
    rw [hcore p hp m' h]
    rfl

/-- The relations that state how many rows they have, have fewer than 10^12, which counts as infinite (`SortByCost.py:65-66`, `richard/core/constants.py`). -/
def FallibleBase.SmallSizes (K : FallibleBase W ar tables rs) : Prop :=
  ∀ m ∈ K.others, ∀ p r, m.relations K.world p = some r → ∀ s, r.relationSize = some s → s < 1000000000000

theorem FallibleBase.mended_sizes (K : FallibleBase W ar tables rs) (hs : K.SmallSizes) : K.mended.SmallSizes := by
  intro m hm p r hr s he
  rcases K.mem_mended hm with h | ⟨m', h, db, rfl⟩
  · exact hs m h p r hr s he
  · simp only [mend, Option.map_eq_some_iff] at hr
    obtain ⟨r', h1, h2⟩ := hr
    refine hs m' h p r' h1 s ?_
    rw [← he, ← h2]
    cases db.get p <;> rfl

/-! ### The theorems -/

/-- **C91** (queries) What a query with negation, quantifiers, counting and comparisons returns over modules that may fail, is right: the world is as it was, the
answers satisfy the query over the rows and the rules, none is missing, none is there twice. -/
theorem C91_answers (K : FallibleBase W ar tables rs) (hrr : HeadsBound rs) (hcore : ∀ p ∈ coreNames, NotDefined K.others K.world p)
    {n : Nat} {q : List Form} {b : Binding} (hq : FormsOk ar q (fun x => b.has x = true)) (hb : PlainB b) {w' : W} {out : SolOut}
    (h : (solverAt K.modules n).solve (.list (formValues q)) b K.world = .ok w' out) :
    w' = K.world ∧ ∃ bs, out = .rows bs ∧
      (∀ b' ∈ bs, (∀ x v, b'.get x = some v → Plain v) ∧ (∀ x v, b.get x = some v → b'.get x = some v) ∧
        (∀ x, b'.has x = true ↔ b.has x = true ∨ x ∈ formBinds q) ∧
        ∀ σ : Assignment, (∀ x, Plain (σ x)) → (∀ x v, b'.get x = some v → σ x = v) →
          SatAll (program tables rs) q (fun x => b.has x = true) σ) ∧
      (∀ σ : Assignment, (∀ x, Plain (σ x)) → (∀ x v, b.get x = some v → σ x = v) →
        SatAll (program tables rs) q (fun x => b.has x = true) σ → ∃ b' ∈ bs, ∀ x v, b'.get x = some v → σ x = v) ∧
      bs.Pairwise fun b1 b2 => ¬ ∀ x, b1.get x = b2.get x :=
  C71_first_order K.mended hrr (K.mended_core hcore) (n := n) hq hb ((solverAt_ref K.ref n).solve _ _ _ _ _ h)

/-- **C91** (texts) What is returned for a text, over modules that may fail, is right, as in C77; with an optimiser, as in C88. -/
theorem C91_text (K : FallibleBase W ar tables rs) (hrr : HeadsBound rs) (hcore : ∀ p ∈ coreNames, NotDefined K.others K.world p)
    {R : List String} {kinds : Str → Nat → Kind} {spec : GRule Attachment → List Value → RuleParts}
    (E : Oracles) (rules : List (GRule Attachment)) (ok : RulesOk rules) (hspec : ∀ r, Usable rules r → SpecRule ar R kinds spec r)
    (hroot : ∀ r, Usable rules r → r.ante.predicate = cRoot → ∃ s, kinds cRoot r.ante.args.length = .phrase s ∧ RootSig s)
    (text : Str) (hl : LowerOk E (normalizeSpace text)) (fuel depth n : Nat)
    {fuel' depth' : Nat} (texts : List Str) {s : Session W} (hg : s.grammar = parseHistory E fuel' depth' (Grammar.new rules) texts)
    (hw : s.world = K.world) (optimize : Bool) (hopt : optimize = true → K.SmallSizes ∧ OrderlyText ar E rules text s.gen)
    {st : Request (Product (ParseTree Attachment)) × Session W} {res : Option (Product (ParseTree Attachment))}
    (h : enter (solverAt K.modules n).inSession (sentencePipeline E fuel depth (if optimize then some K.modules else none) (solverAt K.modules n))
      (Request.new text, s) = .ok st res) :
    st.2.grammar = parseHistory E fuel' depth' (Grammar.new rules) (texts ++ [normalizeSpace text]) ∧
    ((res = none ∧ ∀ d, ¬ WholeDerivation E rules (normalizeSpace text) d) ∨
    ∃ t d bs, WholeDerivation E rules (normalizeSpace text) d ∧ TreesOf Eq [d] [t] ∧
      (∀ d', WholeDerivation E rules (normalizeSpace text) d' → ∃ t', TreesOf (fun r r' => r.equals r' = true) [d'] [t'] ∧
        (t' = t ∨ RankedBefore t t')) ∧
      res = some (.executed (.rows bs)) ∧ st.2.world = K.world ∧
      (bs ≠ [] ↔ ∃ vals : List Value, vals.length = t.rule.ante.args.length ∧ (∀ v ∈ vals, Plain v) ∧
        SentenceTrue (program tables rs) spec t vals) ∧
      ∃ product : ComposerProduct, st.1.current 1 = some (.composed product) ∧ ∃ roots, roots = product.returnVariables ∧
        roots = (List.range t.rule.ante.args.length).map (fun j => genName (s.gen.number + j + 1)) ∧
        (∀ b ∈ bs, ∀ x ∈ flagged roots (sigOf kinds t.rule.ante).after, b.has x = true) ∧
        ∀ vals : List Value, vals.length = roots.length → (∀ v ∈ vals, Plain v) →
        ((∃ b ∈ bs, Fits b roots vals) ↔ SentenceTrue (program tables rs) spec t vals)) := by
  have h' := enterSentence_ref K.ref E fuel depth n optimize _ _ _ h
  cases optimize with
  | false => exact C77_text_to_answers K.mended hrr (K.mended_core hcore) E rules ok hspec hroot text hl fuel depth n texts hg hw h'
  | true =>
    obtain ⟨h1, h2⟩ := hopt rfl
    exact C88_text_to_answers K.mended hrr (K.mended_core hcore) (K.mended_sizes h1) E rules ok hspec hroot text hl fuel depth n texts hg hw h2 h'

end

/-! ## Databases -/

namespace Sql

section
variable {W : Type} {d : Dialect} {st : Style} {l : Lens W Db} {ar : String → Option Nat}

/-- The rows of the table, with these columns. -/
def Table.view (t : Table) (columns : List String) : List (List Value) := t.rows.map fun row => columns.map fun c => t.cell row c.toList

theorem wanted_view (hsame : ∀ v u, d.same v u = decide (v = u)) (t : Table) (row : List Value) : ∀ (cs : List String) (vs : List Value),
    d.wanted t (chars cs) vs row = rowMatches vs (cs.map fun c => t.cell row c.toList)
  | [], [] => rfl
  | [], _ :: _ => rfl
  | _ :: _, [] => rfl
  | c :: cs, v :: vs => by
    have ih := wanted_view hsame t row cs vs
    simp only [Dialect.wanted] at ih
    simp only [Dialect.wanted, chars, List.map_cons, List.zip_cons_cons, List.all_cons, rowMatches]
    rw [show List.map String.toList cs = chars cs from rfl, ih, Dialect.equal, hsame]
    congr 1
    by_cases h1 : v = .none
    · simp [h1]
    · by_cases h2 : t.cell row c.toList = v
      · simp [h1, h2]
      · simp [h1, h2]
        exact fun e => h2 e.symm

/-- Whatever `select` returns are the rows that have the values asked for. -/
theorem select_returns (hsame : ∀ v u, d.same v u = decide (v = u)) {table : String} {columns : List String} {t : Table} {db : Db}
    (htable : d.Named table.toList) (hcolumns : ∀ c ∈ chars columns, d.Named c) (hne : columns ≠ []) (ht : db (fold table.toList) = some t)
    (hc : ∀ c ∈ chars columns, t.Has c) {values : List Value} {rows : List (List Value)}
    (h : select d st table.toList (chars columns) values db = .ok rows) : rows = (t.view columns).filter (rowMatches values) := by
  have hne' : chars columns ≠ [] := by simpa [chars] using hne
  have hg : ∀ g ∈ given (chars columns) values, t.Has g.1 := fun g hg => hc _ (given_mem hg).1
  have hb : (selectSql st.placeholder table.toList (chars columns) values).2 = (given (chars columns) values).map Prod.snd := by simp [selectSql, whereLoop_given]
  rw [select, Dialect.execute, read_select values htable hcolumns hne', hb] at h
  by_cases hall : ((given (chars columns) values).map Prod.snd).all bindable = true
  · simp only [hall, if_true, Dialect.perform, ht, Option.bind_eq_bind, Option.bind_some, positions_of hc, withValues, withValues_of hg, Except.map,
      Except.ok.injEq] at h
    rw [← h, List.filter_congr fun row _ => show d.passes _ row = d.wanted t (chars columns) values row by rw [passes_given hg, all_given],
      Table.view, List.filter_map]
    rw [List.filter_congr fun row _ => show d.wanted t (chars columns) values row = (rowMatches values ∘ fun row => columns.map fun c => t.cell row c.toList) row from
      wanted_view hsame t row columns values]
    apply List.map_congr_left
    intro row _
    rw [chars, List.map_map, List.map_map]
    apply List.map_congr_left
    intro c h
    exact (Table.cell_pos (hc _ (List.mem_map.2 ⟨c, h, rfl⟩)) row).symm
  · simp only [hall] at h
    cases h

/-- The tables that the relations read are in the database, with the columns that they read; their names are words of SQL. -/
def HasTables (d : Dialect) (db : Db) (rels : Dict (String × List String)) (tab : String → Table) : Prop :=
  ∀ p t cs, rels.get p = some (t, cs) → d.Named t.toList ∧ (∀ c ∈ chars cs, d.Named c) ∧ cs ≠ [] ∧ db (fold t.toList) = some (tab t) ∧
    ∀ c ∈ chars cs, (tab t).Has c

/-- The rows that the relations read. -/
def viewed (rels : Dict (String × List String)) (tab : String → Table) : Dict (List (List Value)) :=
  rels.map fun e => (e.1, (tab e.2.1).view e.2.2)

theorem viewed_get (rels : Dict (String × List String)) (tab : String → Table) (p : String) :
    (viewed rels tab).get p = (rels.get p).map fun tc => (tab tc.1).view tc.2 := by
  induction rels with
  | nil => rfl
  | cons e rels ih =>
    obtain ⟨q, tc⟩ := e
    simp only [viewed, List.map_cons, Dict.get] at ih ⊢
    split
    · simp
    · exact ih

/-- **C91** (databases) A module that reads tables of an SQL database, in any of the ways of C85, reads from the rows of the tables, with the columns that it
asks for. It may fail: when a list is asked for, it does. -/
theorem C91_database (hsame : ∀ v u, d.same v u = decide (v = u)) {rels : Dict (String × List String)} {tab : String → Table} {w : W}
    (h : HasTables d (l.get w) rels tab) : FallibleModule ar w (selectModule d st l rels) (viewed rels tab) := by
  intro p k _
  rw [viewed_get]
  cases e : rels.get p with
  | none => simp [selectModule, e]
  | some tc =>
    obtain ⟨t, cs⟩ := tc
    refine ⟨selectRelation d st l p t cs, by simp [selectModule, e], fun values ctx w' out ho => ?_⟩
    obtain ⟨h1, h2, h3, h4, h5⟩ := h p t cs e
    simp only [selectRelation] at ho
    rw [M.bind_ok (M.gets_run _ _), M.bind_eq_ok] at ho
    obtain ⟨w1, rows, g1, g2⟩ := ho
    obtain ⟨rfl, g3⟩ := M.lift_eq_ok.1 g1
    simp only [M.pure_eq_ok] at g2
    obtain ⟨rfl, rfl⟩ := g2
    exact ⟨rfl, by rw [select_returns hsame h1 h2 h3 h4 h5 g3]⟩

/-- It passes exceptions on. -/
theorem selectModule_forwards (d : Dialect) (st : Style) (l : Lens W Db) (rels : Dict (String × List String)) : (selectModule d st l rels).Forwards := by
  intro w p r h
  simp only [selectModule, Option.map_eq_some_iff] at h
  obtain ⟨f, -, rfl⟩ := h
  exact .self (fun _ _ _ _ _ _ _ _ => M.Ref.refl _) fun f h => by simp [selectRelation] at h

end

end Sql

/-! ## Examples: the children are in a database -/

namespace Ex

theorem coreTable_names (W W' : Type) : (coreTable W).keys = (coreTable W').keys := rfl

/-- Whether a program is in order does not depend on the kind of world. -/
theorem programOk_world {W W' : Type} {ar : String → Option Nat} {dbs : List (Dict (List (List Value)))} {rs : List HornRule} (h : ProgramOk W ar dbs rs) :
    ProgramOk W' ar dbs rs where
  notReserved := ⟨h.notReserved.1, h.notReserved.2.1, fun p f hf => by
    cases e : (coreTable W).get p with
    | some g => exact h.notReserved.2.2 p g e
    | none =>
      rw [Dict.get_eq_none_iff, coreTable_names W W', ← Dict.get_eq_none_iff, hf] at e
      cases e⟩
  defined := h.defined
  rowsOk := h.rowsOk
  rulesOk := h.rulesOk

open Sql in
/-- The table `has_child`, with the children of Mary and Bob; a column that is not read is in between. -/
def childTable : Table := ⟨chars ["parent", "since", "child"],
  [[.str "mary", .num 1970, .str "lucy"], [.str "mary", .num 1972, .str "bonny"], [.str "bob", .none, .str "john"], [.str "bob", .none, .str "chuck"]],
  fun _ _ => false⟩

open Sql in
def childDb : Db := fun u => if u = fold "has_child".toList then some childTable else none

/-- The relation `have` reads the table `has_child`. -/
def childRels : Dict (String × List String) := [("have", ("has_child", ["parent", "child"]))]

/-- What the relation reads are the rows of the earlier examples. -/
theorem child_view : Sql.viewed childRels (fun _ => childTable) = kinTables := by decide +kernel

open Sql in
theorem child_has : HasTables Sql.Ex.dialect childDb childRels (fun _ => childTable) := by
  intro p t cs h
  simp only [childRels, Dict.get] at h
  split at h
  · cases h
    refine ⟨⟨by decide +kernel, by decide +kernel⟩, fun c hc => ?_, by decide, by simp [childDb], fun c hc => ?_⟩ <;>
      simp only [chars, List.map_cons, List.map_nil, List.mem_cons, List.not_mem_nil, or_false] at hc <;> rcases hc with rfl | rfl
    · exact ⟨by decide +kernel, by decide +kernel⟩
    · exact ⟨by decide +kernel, by decide +kernel⟩
    · simp [Table.Has, childTable, chars]
    · simp [Table.Has, childTable, chars]
  · cases h

/-- Rules in memory, facts in the database. -/
abbrev ChildWorld := InfState × Sql.Db

def childModule : Module ChildWorld := Sql.selectModule Sql.Ex.dialect .qmark (Lens.snd InfState Sql.Db) childRels

theorem child_facts (s : InfState) : FallibleModule kinAr ((s, childDb) : ChildWorld) childModule kinTables := by
  rw [← child_view]
  exact Sql.C91_database (fun _ _ => rfl) child_has

def childKB : FallibleBase ChildWorld kinAr [kinTables] kinRules where
  lens := Lens.fst InfState Sql.Db
  world := (kinKB.world, childDb)
  before := [childModule]
  after := []
  dbs := [kinTables]
  dbs' := []
  split := rfl
  facts := ⟨child_facts _, trivial⟩
  facts' := trivial
  forwards := by
    intro m hm
    simp only [List.append_nil, List.mem_singleton] at hm
    subst hm
    exact Sql.selectModule_forwards _ _ _ _
  ok := programOk_world kin_ok
  inserted := kinKB.inserted

theorem child_core : ∀ p ∈ coreNames, NotDefined childKB.others childKB.world p := by
  intro p hp m hm
  have h1 : ∀ p ∈ coreNames, (childModule.relations childKB.world p).isNone = true ∧
      ((inferenceModule childKB.lens).relations childKB.world p).isNone = true := by decide +kernel
  have h2 := h1 p hp
  simp only [Option.isNone_iff_eq_none] at h2
  simp only [FallibleBase.others, childKB, List.mem_append, List.mem_cons, List.not_mem_nil, or_false] at hm
  rcases hm with rfl | rfl
  · exact h2.1
  · exact h2.2

theorem child_sizes : childKB.SmallSizes := by
  intro m hm p r h s hs
  simp only [FallibleBase.others, childKB, List.mem_append, List.mem_cons, List.not_mem_nil, or_false] at hm
  have hn : r.relationSize = none := by
    rcases hm with rfl | rfl
    · simp only [childModule, Sql.selectModule, Option.map_eq_some_iff] at h
      obtain ⟨_, _, rfl⟩ := h
      rfl
    · simp only [inferenceModule, Option.map_eq_some_iff] at h
      obtain ⟨_, _, rfl⟩ := h
      rfl
  rw [hn] at hs
  cases hs

/-- What a query returned, without the world. -/
def rowsOf {W : Type} : Res W SolOut → Option (List Binding)
  | .ok _ (.rows bs) => some bs
  | _ => none

theorem rowsOf_some {W : Type} {r : Res W SolOut} {bs : List Binding} (h : rowsOf r = some bs) : ∃ w, r = .ok w (.rows bs) := by
  match r, h with
  | .ok w (.rows _), h => cases h; exact ⟨w, rfl⟩

/-- The query runs over the database. -/
theorem child_query : rowsOf ((solverAt childKB.modules 12).solve (.list (formValues whichQuery)) [] childKB.world) =
    some [[("$1", .str "mary")], [("$1", .str "bob")]] := by decide +kernel

/-- **C91** applies: a parent with exactly two children is Mary or Bob, over the rows of the table and the rules. -/
example (σ : Assignment) (hp : ∀ x, Plain (σ x))
    (hs : SatAll (program [kinTables] kinRules) whichQuery (fun x => Dict.has ([] : Binding) x = true) σ) : σ "$1" = .str "mary" ∨ σ "$1" = .str "bob" := by
  obtain ⟨w, h⟩ := rowsOf_some child_query
  obtain ⟨_, bs, e, _, hc, _⟩ := C91_answers childKB kin_heads child_core (by simpa [Dict.has] using whichQuery_ok) plainB_nil h
  cases e
  obtain ⟨b', hb', h⟩ := hc σ hp (by simp [Dict.get]) hs
  simp only [List.mem_cons, List.not_mem_nil, or_false] at hb'
  rcases hb' with rfl | rfl
  · exact .inl (h "$1" _ rfl)
  · exact .inr (h "$1" _ rfl)

/-- A text is entered, over the database, with the optimiser and without. -/
theorem child_text (o : Bool) : answersOf (enter (solverAt childKB.modules 12).inSession
      (sentencePipeline whoOracles 200 20 (if o then some childKB.modules else none) (solverAt childKB.modules 12))
      (Request.new whichText, ⟨Grammar.new whichGrammar, ⟨0, []⟩, childKB.world⟩)) =
    some [[("$1", .str "mary")], [("$1", .str "bob")]] := by cases o <;> decide +kernel

/-- **C91** applies to the text. -/
example (o : Bool) : ∃ t d, WholeDerivation whoOracles whichGrammar (normalizeSpace whichText) d ∧ TreesOf Eq [d] [t] ∧
    ∃ vals, SentenceTrue (program [kinTables] kinRules) whichSpec t vals := by
  obtain ⟨st, h⟩ := answersOf_some (child_text o)
  obtain ⟨_, h⟩ := C91_text childKB kin_heads child_core whoOracles whichGrammar which_rulesOk which_spec which_root whichText
    (by intro i; simp [whoOracles]) 200 20 12 (fuel' := 20) (depth' := 20) [] rfl rfl o (fun _ => ⟨child_sizes, which_orderly⟩) h
  rcases h with ⟨h, _⟩ | ⟨t, d, bs, h1, h2, _, h4, _, h5, _⟩
  · cases h
  · cases h4
    obtain ⟨vals, _, _, hv⟩ := h5.1 (by simp)
    exact ⟨t, d, h1, h2, vals, hv⟩

/-- The exception of a query, without the world. -/
def errOf {W : Type} : Res W SolOut → Option Err
  | .err _ e => some e
  | _ => none

/-- The database can fail: a list can not be asked for, and the exception is not taken for "no children". -/
example : (errOf ((solverAt childKB.modules 12).solve (.list [.tuple [.str "have", .list [.str "mary"], .var "X"]]) [] childKB.world)).isSome = true ∧
    (errOf ((solverAt childKB.modules 12).solve (.list [.tuple [.str "not", .list [.tuple [.str "have", .list [.str "mary"], .var "X"]]]]) []
      childKB.world)).isSome = true := by decide +kernel

end Ex

end Verif
