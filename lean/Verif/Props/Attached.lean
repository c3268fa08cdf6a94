import Verif.Props.Meaning

/-!
# C74: what grammar rules attach to a sentence is collected completely

Besides a meaning, a rule may bring atoms for the dialog (`dialog`) and atoms to be executed (`exec`). The composer hands them up the
parse tree. The specification says which nodes contribute, in which order, and how their variables are named.
-/

namespace Verif

/-! ## Specification -/

/-- What there is to say about a node: its meaning, the meaning before variables are named, the names of its variables, the meanings of its
children, its own dialog atoms and its own atoms to be executed. -/
structure NodeInfo where
  sem : Value
  raw : Value
  map : Dict String
  args : List Value
  dialog : List Value
  exec : List Value

mutual
/-- The nodes of a tree that are not leaves, with their positions; children before parents, from left to right. -/
def innerNodes : ParseTree Attachment → List (List Nat × ParseTree Attachment)
  | .node cat cs form r => innerNodesIn cs r.cons 0 ++ [([], .node cat cs form r)]
/-- The same for the children from number `i` on. -/
def innerNodesIn : List (ParseTree Attachment) → List Constituent → Nat → List (List Nat × ParseTree Attachment)
  | t :: ts, _ :: ks, i => (if t.children.isEmpty then [] else (innerNodes t).map fun pn => (i :: pn.1, pn.2)) ++ innerNodesIn ts ks (i + 1)
  | _, _, _ => []
end

mutual
/-- The topmost nodes whose rule says what is to be executed, from left to right. -/
def execNodes : ParseTree Attachment → List (List Nat × ParseTree Attachment)
  | .node cat cs form r => if (execOf r.sem).isSome then [([], .node cat cs form r)] else execNodesIn cs r.cons 0
/-- The same for the children from number `i` on. -/
def execNodesIn : List (ParseTree Attachment) → List Constituent → Nat → List (List Nat × ParseTree Attachment)
  | t :: ts, _ :: ks, i => (if t.children.isEmpty then [] else (execNodes t).map fun pn => (i :: pn.1, pn.2)) ++ execNodesIn ts ks (i + 1)
  | _, _, _ => []
end

/-- The meanings of the children of a node: those of leaves are given by their rule, those of other children by `child`. -/
def meaningsOf (child : Nat → Value) : List (ParseTree Attachment) → List Constituent → Nat → List Value
  | t :: ts, _ :: ks, i => (if t.children.isEmpty then leafSem t.rule else [child i]) ++ meaningsOf child ts ks (i + 1)
  | _, _, _ => []

/-- The variables that have a name at a node: the formal variables of the rule and the variables that are arguments of an atom of the meaning,
apart from those that are generated names already. -/
structure NamesFacts (r : GRule Attachment) (raw : Value) (map : Dict String) : Prop where
  formal : ∀ x ∈ formalNames r, ∃ v, map.get x = some v
  args : ∀ atoms, raw = .list atoms → ∀ a ∈ atoms, ∀ x, Value.var x ∈ topArgs a → (∃ v, map.get x = some v) ∨ isGenName x = true
  others : ∀ x v, map.get x = some v → x ∈ formalNames r ∨ isGenName x = false

/-- The functions of the rule of a node have been applied to the meanings of its children. -/
structure NodeFacts (n : ParseTree Attachment) (child : Nat → Value) (x : NodeInfo) : Prop where
  args : x.args = meaningsOf child n.children n.rule.cons 0
  raw : ∃ f, semOf n.rule.sem = some f ∧ f x.args = .ok x.raw
  names : NamesFacts n.rule x.raw x.map
  sem : x.sem = unify x.map x.raw
  dialog : dialogOf n.rule.sem x.args = .ok x.dialog
  exec : ∀ e, execOf n.rule.sem = some e → e x.args = .ok x.exec

/-- Variables are named by the node, then by its parent, and so on to the top. -/
def renameUp (info : List Nat → NodeInfo) : List Nat → Value → Value
  | [], v => unify (info []).map v
  | i :: p, v => unify (info []).map (renameUp (fun q => info (i :: q)) p v)

/-! ## Proof -/

/-- The renaming of an atom from a node up to, not including, the top. -/
def renameBelow (info : List Nat → NodeInfo) : List Nat → Value → Value
  | [], v => v
  | i :: p, v => renameUp (fun q => info (i :: q)) p v

theorem renameUp_eq (info : List Nat → NodeInfo) (p : List Nat) (v : Value) : renameUp info p v = unify (info []).map (renameBelow info p v) := by
  cases p <;> rfl

mutual
theorem execNodes_inner : ∀ (t : ParseTree Attachment), ∀ pn ∈ execNodes t, pn ∈ innerNodes t
  | .node cat cs form r, pn, h => by
    rw [execNodes] at h
    rw [innerNodes, List.mem_append]
    split at h
    · exact .inr h
    · exact .inl (execNodesIn_inner cs r.cons 0 pn h)
theorem execNodesIn_inner : ∀ (ts : List (ParseTree Attachment)) (ks : List Constituent) (i : Nat), ∀ pn ∈ execNodesIn ts ks i,
    pn ∈ innerNodesIn ts ks i
  | [], ks, i, pn, h => by cases ks <;> simp [execNodesIn] at h
  | t :: ts, [], i, pn, h => by simp [execNodesIn] at h
  | t :: ts, k :: ks, i, pn, h => by
    rw [execNodesIn, List.mem_append] at h
    rw [innerNodesIn, List.mem_append]
    rcases h with h | h
    · left
      split at h
      · cases h
      · rename_i hc
        rw [if_neg hc]
        simp only [List.mem_map] at h ⊢
        obtain ⟨x, hx, rfl⟩ := h
        exact ⟨x, execNodes_inner t x hx, rfl⟩
    · exact .inr (execNodesIn_inner ts ks (i + 1) pn h)
end

mutual
theorem execNodes_exec : ∀ (t : ParseTree Attachment), ∀ pn ∈ execNodes t, ∃ e, execOf pn.2.rule.sem = some e
  | .node cat cs form r, pn, h => by
    rw [execNodes] at h
    split at h
    · rename_i he
      rw [List.mem_singleton] at h
      subst h
      exact Option.isSome_iff_exists.1 he
    · exact execNodesIn_exec cs r.cons 0 pn h
theorem execNodesIn_exec : ∀ (ts : List (ParseTree Attachment)) (ks : List Constituent) (i : Nat), ∀ pn ∈ execNodesIn ts ks i,
    ∃ e, execOf pn.2.rule.sem = some e
  | [], ks, i, pn, h => by cases ks <;> simp [execNodesIn] at h
  | t :: ts, [], i, pn, h => by simp [execNodesIn] at h
  | t :: ts, k :: ks, i, pn, h => by
    rw [execNodesIn, List.mem_append] at h
    rcases h with h | h
    · split at h
      · cases h
      · simp only [List.mem_map] at h
        obtain ⟨x, hx, rfl⟩ := h
        exact execNodes_exec t x hx
    · exact execNodesIn_exec ts ks (i + 1) pn h
end

theorem innerNodesIn_start : ∀ (ts : List (ParseTree Attachment)) (ks : List Constituent) (i : Nat), ∀ pn ∈ innerNodesIn ts ks i,
    ∃ j q, pn.1 = j :: q ∧ i ≤ j
  | [], ks, i, pn, h => by cases ks <;> simp [innerNodesIn] at h
  | t :: ts, [], i, pn, h => by simp [innerNodesIn] at h
  | t :: ts, k :: ks, i, pn, h => by
    rw [innerNodesIn, List.mem_append] at h
    rcases h with h | h
    · split at h
      · cases h
      · simp only [List.mem_map] at h
        obtain ⟨x, hx, rfl⟩ := h
        exact ⟨i, x.1, rfl, Nat.le_refl _⟩
    · obtain ⟨j, q, h1, h2⟩ := innerNodesIn_start ts ks (i + 1) pn h
      exact ⟨j, q, h1, by omega⟩

theorem meaningsOf_congr {f g : Nat → Value} : ∀ (ts : List (ParseTree Attachment)) (ks : List Constituent) (i : Nat), (∀ j, i ≤ j → f j = g j) →
    meaningsOf f ts ks i = meaningsOf g ts ks i
  | [], ks, i, _ => by cases ks <;> simp [meaningsOf]
  | t :: ts, [], i, _ => by simp [meaningsOf]
  | t :: ts, k :: ks, i, h => by
    rw [meaningsOf, meaningsOf, h i (Nat.le_refl _), meaningsOf_congr ts ks (i + 1) fun j hj => h j (by omega)]

/-- What holds of the children from number `i` on. -/
structure PartsFacts (info : List Nat → NodeInfo) (ts : List (ParseTree Attachment)) (ks : List Constituent) (i : Nat)
    (acc parts : ChildParts) : Prop where
  sems : parts.sems = acc.sems ++ meaningsOf (fun j => (info [j]).sem) ts ks i
  nodes : ∀ pn ∈ innerNodesIn ts ks i, NodeFacts pn.2 (fun j => (info (pn.1 ++ [j])).sem) (info pn.1)
  maps : ∀ p d, (p, d) ∈ parts.maps ↔ (p, d) ∈ acc.maps ∨ ∃ n, (p, n) ∈ innerNodesIn ts ks i ∧ d = (info p).map
  inferences : parts.inferences = acc.inferences ++ (innerNodesIn ts ks i).flatMap fun pn => (info pn.1).dialog.map (renameBelow info pn.1)
  executable : parts.executable = acc.executable ++ (execNodesIn ts ks i).flatMap fun pn => (info pn.1).exec.map (renameBelow info pn.1)

/-- What holds of a composed node. -/
structure ComposedFacts (info : List Nat → NodeInfo) (t : ParseTree Attachment) (c : Composed) : Prop where
  sem : (info []).sem = c.sem
  nodes : ∀ pn ∈ innerNodes t, NodeFacts pn.2 (fun j => (info (pn.1 ++ [j])).sem) (info pn.1)
  maps : ∀ p d, (p, d) ∈ c.maps ↔ ∃ n, (p, n) ∈ innerNodes t ∧ d = (info p).map
  inferences : c.inferences = (innerNodes t).flatMap fun pn => (info pn.1).dialog.map (renameUp info pn.1)
  executable : c.executable = (execNodes t).flatMap fun pn => (info pn.1).exec.map (renameUp info pn.1)

theorem flatMap_map {α β γ : Type} (l : List α) (f : α → β) (g : β → List γ) : (l.map f).flatMap g = l.flatMap fun a => g (f a) := by
  induction l with
  | nil => rfl
  | cons a l ih => simp [ih]

theorem flatMap_congr' {α β : Type} {l : List α} {f g : α → List β} (h : ∀ a ∈ l, f a = g a) : l.flatMap f = l.flatMap g := by
  induction l with
  | nil => rfl
  | cons a l ih =>
    rw [List.flatMap_cons, List.flatMap_cons, h a (by simp), ih fun a ha => h a (List.mem_cons_of_mem _ ha)]

/-- The information on the children, from that on the first and that on the others. -/
def joinInfo (i : Nat) (first others : List Nat → NodeInfo) : List Nat → NodeInfo
  | [] => others []
  | k :: q => if k = i then first q else others (k :: q)

theorem PartsFacts.cons {i : Nat} {info1 info2 : List Nat → NodeInfo} {t : ParseTree Attachment} {k : Constituent}
    {ts : List (ParseTree Attachment)} {ks : List Constituent} {acc parts : ChildParts} {c : Composed} (hne : t.children.isEmpty = false)
    (h1 : ComposedFacts info1 t c)
    (h2 : PartsFacts info2 ts ks (i + 1) ⟨acc.sems ++ [c.sem], acc.inferences ++ c.inferences, acc.executable ++ c.executable,
        acc.maps ++ c.maps.map fun m => (i :: m.1, m.2)⟩ parts) :
    PartsFacts (joinInfo i info1 info2) (t :: ts) (k :: ks) i acc parts := by
  have e1 : ∀ q, joinInfo i info1 info2 (i :: q) = info1 q := fun q => by simp [joinInfo]
  have e2 : ∀ j q, i + 1 ≤ j → joinInfo i info1 info2 (j :: q) = info2 (j :: q) := fun j q hj => by
    rw [joinInfo, if_neg (by omega)]
  have r1 : ∀ p, renameBelow (joinInfo i info1 info2) (i :: p) = renameUp info1 p := by
    intro p
    funext v
    simp only [renameBelow, e1]
  have r2 : ∀ j q, i + 1 ≤ j → renameBelow (joinInfo i info1 info2) (j :: q) = renameBelow info2 (j :: q) := by
    intro j q hj
    funext v
    simp only [renameBelow, e2 _ _ hj]
  have hin : innerNodesIn (t :: ts) (k :: ks) i = (innerNodes t).map (fun pn => (i :: pn.1, pn.2)) ++ innerNodesIn ts ks (i + 1) := by
    rw [innerNodesIn, hne]
    rfl
  have hex : execNodesIn (t :: ts) (k :: ks) i = (execNodes t).map (fun pn => (i :: pn.1, pn.2)) ++ execNodesIn ts ks (i + 1) := by
    rw [execNodesIn, hne]
    rfl
  refine ⟨?_, ?_, ?_, ?_, ?_⟩
  · rw [h2.sems, meaningsOf, hne]
    simp only [e1, Bool.false_eq_true, ↓reduceIte, h1.sem]
    rw [meaningsOf_congr (f := fun j => (joinInfo i info1 info2 [j]).sem) (g := fun j => (info2 [j]).sem) ts ks (i + 1)
      fun j hj => by rw [e2 j [] hj]]
    simp
  · intro pn hpn
    rw [hin, List.mem_append, List.mem_map] at hpn
    rcases hpn with ⟨x, hx, rfl⟩ | hpn
    · simpa only [List.cons_append, e1] using h1.nodes x hx
    · obtain ⟨j, q, hp, hj⟩ := innerNodesIn_start ts ks (i + 1) pn hpn
      have := h2.nodes pn hpn
      rw [hp] at this ⊢
      simpa only [List.cons_append, e2 j _ hj] using this
  · intro p d
    rw [h2.maps, hin]
    simp only [List.mem_append, List.mem_map, Prod.mk.injEq]
    constructor
    · rintro ((h | ⟨m, hm, rfl, rfl⟩) | ⟨n, hn, rfl⟩)
      · exact .inl h
      · obtain ⟨n, hn, hd⟩ := (h1.maps m.1 m.2).1 hm
        exact .inr ⟨n, .inl ⟨(m.1, n), hn, rfl, rfl⟩, by rw [e1, hd]⟩
      · obtain ⟨j, q, hp, hj⟩ := innerNodesIn_start ts ks (i + 1) _ hn
        simp only at hp
        subst hp
        exact .inr ⟨n, .inr hn, by rw [e2 _ _ hj]⟩
    · rintro (h | ⟨n, ⟨x, hx, rfl, rfl⟩ | hn, rfl⟩)
      · exact .inl (.inl h)
      · exact .inl (.inr ⟨(x.1, (info1 x.1).map), (h1.maps _ _).2 ⟨x.2, hx, rfl⟩, rfl, by rw [e1]⟩)
      · obtain ⟨j, q, hp, hj⟩ := innerNodesIn_start ts ks (i + 1) _ hn
        simp only at hp
        subst hp
        exact .inr ⟨n, hn, by rw [e2 _ _ hj]⟩
  · rw [h2.inferences, hin, List.flatMap_append, flatMap_map, h1.inferences, List.append_assoc]
    congr 2
    · exact flatMap_congr' fun a _ => by simp only [e1, r1]
    · refine flatMap_congr' fun a ha => ?_
      obtain ⟨j, q, hp, hj⟩ := innerNodesIn_start ts ks (i + 1) a ha
      rw [hp, e2 _ _ hj, r2 _ _ hj]
  · rw [h2.executable, hex, List.flatMap_append, flatMap_map, h1.executable, List.append_assoc]
    congr 2
    · exact flatMap_congr' fun a _ => by simp only [e1, r1]
    · refine flatMap_congr' fun a ha => ?_
      obtain ⟨j, q, hp, hj⟩ := innerNodesIn_start ts ks (i + 1) a (execNodesIn_inner _ _ _ a ha)
      rw [hp, e2 _ _ hj, r2 _ _ hj]

theorem PartsFacts.leaf {i : Nat} {info : List Nat → NodeInfo} {t : ParseTree Attachment} {k : Constituent}
    {ts : List (ParseTree Attachment)} {ks : List Constituent} {acc acc2 parts : ChildParts} (hne : t.children.isEmpty = true)
    (hs : acc2.sems = acc.sems ++ leafSem t.rule) (hi : acc2.inferences = acc.inferences) (he : acc2.executable = acc.executable)
    (hm : acc2.maps = acc.maps) (h2 : PartsFacts info ts ks (i + 1) acc2 parts) : PartsFacts info (t :: ts) (k :: ks) i acc parts := by
  have hin : innerNodesIn (t :: ts) (k :: ks) i = innerNodesIn ts ks (i + 1) := by
    rw [innerNodesIn, hne]
    rfl
  have hex : execNodesIn (t :: ts) (k :: ks) i = execNodesIn ts ks (i + 1) := by
    rw [execNodesIn, hne]
    rfl
  refine ⟨?_, ?_, ?_, ?_, ?_⟩
  · rw [h2.sems, meaningsOf, hne, hs]
    simp
  · rw [hin]
    exact h2.nodes
  · rw [hin, ← hm]
    exact h2.maps
  · rw [hin, ← hi]
    exact h2.inferences
  · rw [hex, ← he]
    exact h2.executable

theorem PartsFacts.none (info : List Nat → NodeInfo) {ts : List (ParseTree Attachment)} {ks : List Constituent} (h : ts = [] ∨ ks = []) (i : Nat)
    (acc : ChildParts) : PartsFacts info ts ks i acc acc := by
  have h1 : innerNodesIn ts ks i = [] := by
    rcases h with rfl | rfl <;> first | (cases ks <;> rfl) | (cases ts <;> rfl)
  have h2 : execNodesIn ts ks i = [] := by
    rcases h with rfl | rfl <;> first | (cases ks <;> rfl) | (cases ts <;> rfl)
  have h3 : ∀ f, meaningsOf f ts ks i = [] := by
    intro f
    rcases h with rfl | rfl <;> first | (cases ks <;> rfl) | (cases ts <;> rfl)
  refine ⟨by simp [h3], by simp [h1], by simp [h1], by simp [h1], by simp [h2]⟩

/-- The information on the node itself is put at the top. -/
def topInfo (top : NodeInfo) (info : List Nat → NodeInfo) : List Nat → NodeInfo
  | [] => top
  | k :: q => info (k :: q)

theorem ComposedFacts.node {cat form : Str} {cs : List (ParseTree Attachment)} {r : GRule Attachment} {info : List Nat → NodeInfo}
    {parts : ChildParts} (hp : PartsFacts info cs r.cons 0 ⟨[], [], [], []⟩ parts) {f : List Value → Except Err Value} {s : Value}
    (hf : semOf r.sem = some f) (hs : f parts.sems = .ok s) {ex dg : List Value} (he : execResult r.sem parts.sems parts.executable = .ok ex)
    (hd : dialogOf r.sem parts.sems = .ok dg) (d : Dict String)
    (hn : NamesFacts r s d) :
    ComposedFacts (topInfo ⟨unify d s, s, d, parts.sems, dg, ex⟩ info) (.node cat cs form r)
      ⟨unify d s, unifyList d (parts.inferences ++ dg), unifyList d ex, ([], d) :: parts.maps⟩ := by
  have hps : parts.sems = meaningsOf (fun j => (info [j]).sem) cs r.cons 0 := by simpa using hp.sems
  have hpi := hp.inferences
  have hpe := hp.executable
  simp only [List.nil_append] at hpi hpe
  have ht : ∀ pn ∈ innerNodesIn cs r.cons 0, ∃ j q, pn.1 = j :: q := fun pn h => by
    obtain ⟨j, q, h1, _⟩ := innerNodesIn_start _ _ _ pn h
    exact ⟨j, q, h1⟩
  refine ⟨rfl, ?_, ?_, ?_, ?_⟩
  · intro pn hpn
    rw [innerNodes, List.mem_append, List.mem_singleton] at hpn
    rcases hpn with hpn | rfl
    · obtain ⟨j, q, h1⟩ := ht pn hpn
      have := hp.nodes pn hpn
      rw [h1] at this ⊢
      exact this
    · refine ⟨hps, ⟨f, hf, hs⟩, hn, rfl, hd, ?_⟩
      intro e hee
      simp only [ParseTree.rule] at hee
      simp only [execResult, hee] at he
      exact he
  · intro p d'
    rw [innerNodes]
    simp only [List.mem_cons, List.mem_append, Prod.mk.injEq]
    rw [hp.maps]
    simp only [List.not_mem_nil, false_or]
    constructor
    · rintro (⟨rfl, rfl⟩ | ⟨n, hn, rfl⟩)
      · exact ⟨_, .inr (.inl ⟨rfl, rfl⟩), rfl⟩
      · obtain ⟨j, q, h1⟩ := ht _ hn
        simp only at h1
        subst h1
        exact ⟨n, .inl hn, rfl⟩
    · rintro ⟨n, hn | ⟨rfl, rfl⟩ | h, rfl⟩
      · obtain ⟨j, q, h1⟩ := ht _ hn
        simp only at h1
        subst h1
        exact .inr ⟨n, hn, rfl⟩
      · exact .inl ⟨rfl, rfl⟩
      · exact h.elim
  · rw [innerNodes, List.flatMap_append, List.flatMap_singleton]
    simp only [unifyList_eq_map, List.map_append]
    congr 1
    rw [hpi, List.map_flatMap]
    refine flatMap_congr' fun pn hpn => ?_
    obtain ⟨j, q, h1⟩ := ht pn hpn
    rw [h1, List.map_map]
    rfl
  · simp only [unifyList_eq_map]
    rw [execNodes]
    cases hexec : execOf r.sem with
    | some e => simp [renameUp, topInfo]
    | none =>
      simp only [execResult, hexec, Except.ok.injEq] at he
      simp only [Option.isSome_none, Bool.false_eq_true, ↓reduceIte]
      rw [← he, hpe, List.map_flatMap]
      refine flatMap_congr' fun pn hpn => ?_
      obtain ⟨j, q, h1⟩ := ht pn (execNodesIn_inner _ _ _ _ hpn)
      rw [h1, List.map_map]
      rfl

mutual
theorem compose_facts : ∀ (t : ParseTree Attachment) (inc : List String) (g g' : Gen) (c : Composed), compose t inc g = .ok g' c →
    ∃ info, ComposedFacts info t c
  | .node cat cs form r, inc, g, g', c, h => by
    unfold compose at h
    rw [M.bind_eq_ok] at h
    obtain ⟨g1, d, hd, h⟩ := h
    rw [M.bind_eq_ok] at h
    obtain ⟨g2, parts, hp, h⟩ := h
    obtain ⟨info, hi⟩ := composeChildren_facts cs r.cons d 0 ⟨[], [], [], []⟩ g1 g2 parts hp
    cases hsem : semOf r.sem with
    | none => simp [hsem] at h
    | some f =>
      simp only [hsem, M.bind_eq_ok, M.lift_eq_ok, M.pure_eq_ok] at h
      obtain ⟨_, s, ⟨rfl, hf⟩, _, ex, ⟨rfl, he⟩, _, dg, ⟨rfl, hdg⟩, g3, d', hx, rfl, rfl⟩ := h
      obtain ⟨m1, m2, _, m4⟩ := createMap_spec hd
      obtain ⟨x1, x2, x3⟩ := extendMap_grows hx
      refine ⟨_, ComposedFacts.node hi hsem hf he hdg d' ⟨fun x hxf => ?_, fun atoms hat a ha x hxa => ?_, fun x v hv => ?_⟩⟩
      · have : ∃ v, d.get x = some v := by
          simp only [formalNames, List.mem_append, List.mem_flatMap] at hxf
          rcases hxf with hform | ⟨k, hk, hkx⟩
          · obtain ⟨j, hj⟩ := LastArg.exists hform
            obtain ⟨u, _, hu⟩ := m1 x j hj
            exact ⟨u, hu⟩
          · exact m4 k hk x hkx
        obtain ⟨v, hv⟩ := this
        exact ⟨v, x1.keep x v hv⟩
      · obtain ⟨items, hi, hit⟩ := x2 atoms hat a ha
        have hitems : items = topArgs a := by
          cases a <;> simp only [iterItems, Except.ok.injEq, reduceCtorEq, topArgs] at hi ⊢ <;> exact hi.symm
        rw [hitems] at hit
        exact hit x hxa
      · cases hd0 : d.get x with
        | none => exact .inr (x3 x v hv hd0)
        | some u =>
          left
          simp only [formalNames, List.mem_append, List.mem_flatMap]
          by_cases ha : x ∈ argNames r.ante
          · exact .inl ha
          · exact .inr (m2 x u hd0 ha).2
theorem composeChildren_facts : ∀ (cs : List (ParseTree Attachment)) (ks : List Constituent) (d : Dict String) (i : Nat)
    (acc : ChildParts) (g g' : Gen) (parts : ChildParts), composeChildren cs ks d i acc g = .ok g' parts →
    ∃ info, PartsFacts info cs ks i acc parts
  | [], ks, d, i, acc, g, g', parts, h => by
    unfold composeChildren at h
    simp only [M.pure_eq_ok] at h
    obtain ⟨rfl, rfl⟩ := h
    exact ⟨fun _ => ⟨.none, .none, [], [], [], []⟩, PartsFacts.none _ (.inl rfl) _ _⟩
  | _ :: _, [], d, i, acc, g, g', parts, h => by
    unfold composeChildren at h
    simp only [M.pure_eq_ok] at h
    obtain ⟨rfl, rfl⟩ := h
    exact ⟨fun _ => ⟨.none, .none, [], [], [], []⟩, PartsFacts.none _ (.inr rfl) _ _⟩
  | .node cat cs form r :: rest, k :: ks, d, i, acc, g, g', parts, h => by
    unfold composeChildren at h
    split at h
    · rename_i hcs
      cases hsem : semOf r.sem with
      | none =>
        simp only [hsem] at h
        obtain ⟨info, hi⟩ := composeChildren_facts rest ks d (i + 1) acc g g' parts h
        exact ⟨info, .leaf hcs (by simp [leafSem, ParseTree.rule, hsem]) rfl rfl rfl hi⟩
      | some f =>
        simp only [hsem, M.bind_eq_ok, M.lift_eq_ok] at h
        obtain ⟨_, s, ⟨rfl, hs⟩, h⟩ := h
        obtain ⟨info, hi⟩ := composeChildren_facts rest ks d (i + 1) _ g g' parts h
        refine ⟨info, .leaf (acc2 := ⟨acc.sems ++ [s], acc.inferences, acc.executable, acc.maps⟩) hcs ?_ rfl rfl rfl hi⟩
        simp [leafSem, ParseTree.rule, hsem, hs]
    · rename_i hcs
      simp only [M.bind_eq_ok, M.lift_eq_ok] at h
      obtain ⟨_, inc, ⟨rfl, hinc⟩, g1, c, hc, h⟩ := h
      obtain ⟨info1, hi1⟩ := compose_facts (.node cat cs form r) inc g g1 c hc
      obtain ⟨info2, hi2⟩ := composeChildren_facts rest ks d (i + 1) _ g1 g' parts h
      exact ⟨_, .cons (by simpa [ParseTree.children] using hcs) hi1 hi2⟩
end

/-- **C74**. The dialog atoms of a sentence are those of all its nodes, children before parents and from left to right; the atoms to be
executed are those of the topmost nodes that have any. Each rule's functions have been applied to the meanings of the children, the
same for the meaning, the dialog and the execution, and variables are named by the node and then by those above it, with the maps
that name the variables of the meaning. -/
theorem C74_collected {t : ParseTree Attachment} {g g' : Gen} {roots : List String} {c : Composed}
    (h : composeSentence t g = .ok g' (roots, c)) :
    ∃ info : List Nat → NodeInfo, (info []).sem = c.sem ∧
      (∀ pn ∈ innerNodes t, NodeFacts pn.2 (fun j => (info (pn.1 ++ [j])).sem) (info pn.1)) ∧
      (∀ p d, (p, d) ∈ c.maps ↔ ∃ n, (p, n) ∈ innerNodes t ∧ d = (info p).map) ∧
      c.inferences = (innerNodes t).flatMap (fun pn => (info pn.1).dialog.map (renameUp info pn.1)) ∧
      c.executable = (execNodes t).flatMap (fun pn => (info pn.1).exec.map (renameUp info pn.1)) := by
  obtain ⟨g1, h1, h2, hm⟩ := composeSentence_parts h
  obtain ⟨info, hi⟩ := compose_facts t roots g1 g' c h2
  exact ⟨info, hi.sem, hi.nodes, hi.maps, hi.inferences, hi.executable⟩

/-! ## Names of variables -/

theorem unify_tidy {d : Dict String} {v : Value} (hvals : ∀ x y, d.get x = some y → isGenName y = true)
    (h : ∀ x ∈ deepVars v, (∃ y, d.get x = some y) ∨ isGenName x = true) : AllGen (unify d v) := by
  intro y hy
  obtain ⟨x, hx, hd | ⟨hn, rfl⟩⟩ := unify_deep d v y hy
  · exact hvals x y hd
  · rcases h x hx with ⟨u, hu⟩ | hg
    · rw [hn] at hu
      cases hu
    · exact hg

theorem innerNodes_self (t : ParseTree Attachment) : ([], t) ∈ innerNodes t := by
  cases t
  simp [innerNodes]

mutual
theorem allGen_nodes : ∀ (t : ParseTree Attachment) (info : List Nat → NodeInfo), TidyTree t → t.children ≠ [] →
    (∀ pn ∈ innerNodes t, NodeFacts pn.2 (fun j => (info (pn.1 ++ [j])).sem) (info pn.1)) →
    (∀ pn ∈ innerNodes t, ∀ x y, (info pn.1).map.get x = some y → isGenName y = true) →
    ∀ pn ∈ innerNodes t, AllGen (info pn.1).sem ∧ ∀ a ∈ (info pn.1).args, AllGen a
  | .node cat cs form r, info, ht, hne, hf, hv, pn, hpn => by
    rw [TidyTree] at ht
    have hin : ∀ pn ∈ innerNodesIn cs r.cons 0, pn ∈ innerNodes (.node cat cs form r) := fun pn h => by
      rw [innerNodes, List.mem_append]
      exact .inl h
    obtain ⟨k1, k2⟩ := allGen_nodesIn cs r.cons 0 info ht.2.2 (fun pn h => hf pn (hin pn h)) fun pn h => hv pn (hin pn h)
    rw [innerNodes, List.mem_append, List.mem_singleton] at hpn
    rcases hpn with hpn | rfl
    · exact k1 pn hpn
    · have hfn := hf _ (innerNodes_self (.node cat cs form r))
      have hvn := hv _ (innerNodes_self (.node cat cs form r))
      have hargs : ∀ a ∈ (info []).args, AllGen a := by
        rw [hfn.args]
        exact k2
      refine ⟨?_, hargs⟩
      show AllGen (info []).sem
      rw [hfn.sem]
      refine unify_tidy hvn fun x hx => ?_
      obtain ⟨f, hsem, hraw⟩ := hfn.raw
      rcases ht.2.1 hne f _ _ hsem hraw x hx with h | ⟨atoms, h1, a, h2, h3⟩ | h
      · exact .inl (hfn.names.formal x h)
      · exact hfn.names.args atoms h1 a h2 x h3
      · obtain ⟨a, ha, hxa⟩ := deepVarsAll_mem.1 h
        exact .inr (hargs a ha x hxa)
theorem allGen_nodesIn : ∀ (ts : List (ParseTree Attachment)) (ks : List Constituent) (i : Nat) (info : List Nat → NodeInfo), TidyTrees ts →
    (∀ pn ∈ innerNodesIn ts ks i, NodeFacts pn.2 (fun j => (info (pn.1 ++ [j])).sem) (info pn.1)) →
    (∀ pn ∈ innerNodesIn ts ks i, ∀ x y, (info pn.1).map.get x = some y → isGenName y = true) →
    (∀ pn ∈ innerNodesIn ts ks i, AllGen (info pn.1).sem ∧ ∀ a ∈ (info pn.1).args, AllGen a) ∧
      ∀ a ∈ meaningsOf (fun j => (info [j]).sem) ts ks i, AllGen a
  | [], ks, i, info, _, _, _ => by
    constructor
    · intro pn h
      cases ks <;> simp [innerNodesIn] at h
    · intro a h
      cases ks <;> simp [meaningsOf] at h
  | t :: ts, [], i, info, _, _, _ => ⟨fun pn h => by simp [innerNodesIn] at h, fun a h => by simp [meaningsOf] at h⟩
  | .node cat cs form r :: ts, k :: ks, i, info, ht, hf, hv => by
    rw [TidyTrees] at ht
    have hin : ∀ pn ∈ innerNodesIn ts ks (i + 1), pn ∈ innerNodesIn (.node cat cs form r :: ts) (k :: ks) i := fun pn h => by
      rw [innerNodesIn, List.mem_append]
      exact .inr h
    obtain ⟨k1, k2⟩ := allGen_nodesIn ts ks (i + 1) info ht.2 (fun pn h => hf pn (hin pn h)) fun pn h => hv pn (hin pn h)
    by_cases hc : cs = []
    · subst hc
      constructor
      · intro pn hpn
        rw [innerNodesIn, List.mem_append] at hpn
        rcases hpn with hpn | hpn
        · simp [ParseTree.children] at hpn
        · exact k1 pn hpn
      · intro a ha
        rw [meaningsOf, List.mem_append] at ha
        rcases ha with ha | ha
        · simp only [ParseTree.children, List.isEmpty_nil, ↓reduceIte, ParseTree.rule, leafSem] at ha
          have ht1 := ht.1
          rw [TidyTree] at ht1
          cases hsem : semOf r.sem with
          | none => simp [hsem] at ha
          | some f =>
            cases hfv : f [] with
            | error e => simp [hsem, hfv] at ha
            | ok v =>
              simp only [hsem, hfv, List.mem_singleton] at ha
              subst ha
              intro x hx
              rw [ht1.1 rfl f a hsem hfv] at hx
              cases hx
        · exact k2 a ha
    · have hce : (ParseTree.node cat cs form r).children.isEmpty = false := by simpa [ParseTree.children] using hc
      have hin2 : ∀ x ∈ innerNodes (.node cat cs form r), (i :: x.1, x.2) ∈ innerNodesIn (.node cat cs form r :: ts) (k :: ks) i := fun x h => by
        rw [innerNodesIn, hce, List.mem_append]
        exact .inl (List.mem_map_of_mem h)
      have hch := allGen_nodes (.node cat cs form r) (fun q => info (i :: q)) ht.1 hc (fun x h => hf _ (hin2 x h)) fun x h => hv _ (hin2 x h)
      constructor
      · intro pn hpn
        rw [innerNodesIn, hce, List.mem_append] at hpn
        rcases hpn with hpn | hpn
        · simp only [Bool.false_eq_true, ↓reduceIte, List.mem_map] at hpn
          obtain ⟨x, hx, rfl⟩ := hpn
          exact hch x hx
        · exact k1 pn hpn
      · intro a ha
        rw [meaningsOf, hce, List.mem_append] at ha
        rcases ha with ha | ha
        · simp only [Bool.false_eq_true, ↓reduceIte, List.mem_singleton] at ha
          subst ha
          exact (hch _ (innerNodes_self _)).1
        · exact k2 a ha
end

theorem renameUp_once : ∀ (p : List Nat) (info : List Nat → NodeInfo) (v : Value),
    (∀ q, q <+: p → ∀ x, isGenName x = true → (info q).map.get x = none) → AllGen (unify (info p).map v) →
    renameUp info p v = unify (info p).map v
  | [], info, v, _, _ => rfl
  | i :: p, info, v, hk, hg => by
    rw [renameUp, renameUp_once p (fun q => info (i :: q)) v (fun q hq => hk (i :: q) (by simpa using hq)) hg]
    exact unify_keep _ _ fun x hx => hk [] (by simp) x (hg x hx)

mutual
theorem innerNodes_prefix : ∀ (t : ParseTree Attachment), ∀ pn ∈ innerNodes t, ∀ q, q <+: pn.1 → ∃ n, (q, n) ∈ innerNodes t
  | .node cat cs form r, pn, hpn, q, hq => by
    cases q with
    | nil => exact ⟨_, innerNodes_self _⟩
    | cons i q =>
      rw [innerNodes, List.mem_append, List.mem_singleton] at hpn
      rcases hpn with hpn | rfl
      · obtain ⟨n, hn⟩ := innerNodesIn_prefix cs r.cons 0 pn hpn i q hq
        exact ⟨n, by rw [innerNodes, List.mem_append]; exact .inl hn⟩
      · simp at hq
theorem innerNodesIn_prefix : ∀ (ts : List (ParseTree Attachment)) (ks : List Constituent) (i : Nat), ∀ pn ∈ innerNodesIn ts ks i,
    ∀ j q, j :: q <+: pn.1 → ∃ n, (j :: q, n) ∈ innerNodesIn ts ks i
  | [], ks, i, pn, h, _, _, _ => by cases ks <;> simp [innerNodesIn] at h
  | t :: ts, [], i, pn, h, _, _, _ => by simp [innerNodesIn] at h
  | t :: ts, k :: ks, i, pn, h, j, q, hq => by
    rw [innerNodesIn, List.mem_append] at h
    rcases h with h | h
    · split at h
      · cases h
      · rename_i hc
        simp only [List.mem_map] at h
        obtain ⟨x, hx, rfl⟩ := h
        simp only [List.cons_prefix_cons] at hq
        obtain ⟨rfl, hq⟩ := hq
        obtain ⟨n, hn⟩ := innerNodes_prefix t x hx q hq
        refine ⟨n, ?_⟩
        rw [innerNodesIn, List.mem_append, if_neg hc]
        exact .inl (List.mem_map.2 ⟨_, hn, rfl⟩)
    · obtain ⟨n, hn⟩ := innerNodesIn_prefix ts ks (i + 1) pn h j q hq
      exact ⟨n, by rw [innerNodesIn, List.mem_append]; exact .inr hn⟩
end

/-- The atoms that a rule attaches use only its formal variables, variables that are arguments of an atom of its meaning, and what comes from the
meanings of the children. -/
def TidyAtoms (r : GRule Attachment) (sems atoms : List Value) : Prop := ∀ f s, semOf r.sem = some f → f sems = .ok s → ∀ x ∈ deepVarsAll atoms,
  x ∈ formalNames r ∨ (∃ as, s = .list as ∧ ∃ a ∈ as, Value.var x ∈ topArgs a) ∨ x ∈ deepVarsAll sems

/-- **C74** (names). If rules are tidy, and no formal variable starts with `$`, then the variables of the dialog atoms and of the atoms to
be executed are named exactly as in the meaning of their own node, whatever the names used in nodes above it, and all of them are
generated names. Missing: atoms that use a variable that is neither a formal variable of the rule nor an argument of an atom of its
meaning (`C74_capture`). -/
theorem C74_names_partial {t : ParseTree Attachment} {g g' : Gen} {roots : List String} {c : Composed} (ht : TidyTree t) (hne : t.children ≠ [])
    (hnames : ∀ pn ∈ innerNodes t, ∀ x ∈ formalNames pn.2.rule, x.toList.head? ≠ some '$')
    (hdialog : ∀ pn ∈ innerNodes t, ∀ sems atoms, dialogOf pn.2.rule.sem sems = .ok atoms → TidyAtoms pn.2.rule sems atoms)
    (hexec : ∀ pn ∈ innerNodes t, ∀ e, execOf pn.2.rule.sem = some e → ∀ sems atoms, e sems = .ok atoms → TidyAtoms pn.2.rule sems atoms)
    (h : composeSentence t g = .ok g' (roots, c)) :
    ∃ info : List Nat → NodeInfo, (info []).sem = c.sem ∧
      (∀ pn ∈ innerNodes t, NodeFacts pn.2 (fun j => (info (pn.1 ++ [j])).sem) (info pn.1)) ∧
      (∀ p d, (p, d) ∈ c.maps ↔ ∃ n, (p, n) ∈ innerNodes t ∧ d = (info p).map) ∧
      c.inferences = (innerNodes t).flatMap (fun pn => (info pn.1).dialog.map (unify (info pn.1).map)) ∧
      c.executable = (execNodes t).flatMap (fun pn => (info pn.1).exec.map (unify (info pn.1).map)) ∧
      ∀ x ∈ deepVarsAll c.inferences ++ deepVarsAll c.executable, x.toList.head? = some '$' := by
  obtain ⟨info, h1, h2, h3, h4, h5⟩ := C74_collected h
  obtain ⟨g1, hr1, hr2, hm⟩ := composeSentence_parts h
  obtain ⟨a1, a2, a3⟩ := nextVars_roots hr1
  have hvals : ∀ pn ∈ innerNodes t, ∀ x y, (info pn.1).map.get x = some y → isGenName y = true := by
    intro pn hpn x y hy
    rcases hm.source pn.1 _ ((h3 _ _).2 ⟨pn.2, hpn, rfl⟩) x y hy with ⟨j, _, _, hj, _⟩ | hf
    · rw [a3 j y hj]
      exact isGenName_genName _
    · exact isGenName_fresh hf
  have hnone : ∀ pn ∈ innerNodes t, ∀ q, q <+: pn.1 → ∀ x, isGenName x = true → (info q).map.get x = none := by
    intro pn hpn q hq x hx
    obtain ⟨n, hn⟩ := innerNodes_prefix t pn hpn q hq
    cases hg : (info q).map.get x with
    | none => rfl
    | some v =>
      exfalso
      rcases (h2 _ hn).names.others x v hg with hf | hf
      · exact hnames _ hn x hf (by simpa [isGenName] using hx)
      · rw [hx] at hf
        cases hf
  have hall := allGen_nodes t info ht hne h2 hvals
  have htidy : ∀ pn ∈ innerNodes t, ∀ atoms, TidyAtoms pn.2.rule (info pn.1).args atoms → ∀ v ∈ atoms, AllGen (unify (info pn.1).map v) := by
    intro pn hpn atoms hta v hv
    refine unify_tidy (hvals pn hpn) fun x hx => ?_
    obtain ⟨f, hf, hraw⟩ := (h2 pn hpn).raw
    rcases hta f _ hf hraw x (deepVarsAll_mem.2 ⟨v, hv, hx⟩) with hh | ⟨as, e1, a, e2, e3⟩ | hh
    · exact .inl ((h2 pn hpn).names.formal x hh)
    · exact (h2 pn hpn).names.args as e1 a e2 x e3
    · obtain ⟨a, ha, hxa⟩ := deepVarsAll_mem.1 hh
      exact .inr ((hall pn hpn).2 a ha x hxa)
  have hd : ∀ pn ∈ innerNodes t, ∀ v ∈ (info pn.1).dialog, AllGen (unify (info pn.1).map v) := fun pn hpn =>
    htidy pn hpn _ (hdialog pn hpn _ _ (h2 pn hpn).dialog)
  have he : ∀ pn ∈ execNodes t, ∀ v ∈ (info pn.1).exec, AllGen (unify (info pn.1).map v) := by
    intro pn hpn
    have hin := execNodes_inner t pn hpn
    have hsome : ∃ e, execOf pn.2.rule.sem = some e := execNodes_exec t pn hpn
    obtain ⟨e, hee⟩ := hsome
    exact htidy pn hin _ (hexec pn hin e hee _ _ ((h2 pn hin).exec e hee))
  have hi : c.inferences = (innerNodes t).flatMap (fun pn => (info pn.1).dialog.map (unify (info pn.1).map)) := by
    rw [h4]
    refine flatMap_congr' fun pn hpn => List.map_congr_left fun v hv => ?_
    exact renameUp_once _ _ _ (hnone pn hpn) (hd pn hpn v hv)
  have hx : c.executable = (execNodes t).flatMap (fun pn => (info pn.1).exec.map (unify (info pn.1).map)) := by
    rw [h5]
    refine flatMap_congr' fun pn hpn => List.map_congr_left fun v hv => ?_
    exact renameUp_once _ _ _ (hnone pn (execNodes_inner t pn hpn)) (he pn hpn v hv)
  refine ⟨info, h1, h2, h3, hi, hx, fun x hxm => ?_⟩
  have : isGenName x = true := by
    rw [hi, hx, List.mem_append] at hxm
    rcases hxm with hxm | hxm
    · obtain ⟨v, hv, hxv⟩ := deepVarsAll_mem.1 hxm
      simp only [List.mem_flatMap, List.mem_map] at hv
      obtain ⟨pn, hpn, u, hu, rfl⟩ := hv
      exact hd pn hpn u hu x hxv
    · obtain ⟨v, hv, hxv⟩ := deepVarsAll_mem.1 hxm
      simp only [List.mem_flatMap, List.mem_map] at hv
      obtain ⟨pn, hpn, u, hu, rfl⟩ := hv
      exact he pn hpn u hu x hxv
  simpa [isGenName] using this

/-! ## Cases -/

/-- `np(X) -> 'x'`, meaning `[('p', X, L)]`, with a dialog atom about the variable `z` and, if `ex`, an atom to be executed. -/
def exNpAttached (z : String) (ex : Bool) : ParseTree Attachment := .node ['n', 'p'] [exLeafNode] []
  ⟨exConst ['n', 'p'] [['X']], [⟨['x'], [], .word, false, false⟩],
    .user ⟨some fun _ => .ok (.list [.tuple [.str "p", .var "X", .var "L"]]),
      if ex then some fun _ => .ok [.tuple [.str "show", .var "X"]] else none,
      fun _ => .ok [.tuple [.str "named", .var z]]⟩, 0, 0⟩

/-- `s(E) -> np(E) np(Y)`, meaning: both noun phrases, with a dialog atom about `Y`. -/
def exSentAttached (z : String) : ParseTree Attachment := .node ['s'] [exNpAttached z true, exNpAttached z false] []
  ⟨exConst ['s'] [['E']], [exConst ['n', 'p'] [['E']], exConst ['n', 'p'] [['Y']]],
    .user ⟨some fun sems => match sems with
      | [.list np1, .list np2] => .ok (.list (np1 ++ np2))
      | _ => .error .typeError, none, fun _ => .ok [.tuple [.str "topic", .var "Y"]]⟩, 0, 0⟩

/-- The dialog atoms and the atoms to be executed of a composed sentence, if there is one. -/
def attachedOf (t : ParseTree Attachment) : Option (List Value × List Value) := match composeSentence t Gen.init with
  | .ok _ r => some (r.2.inferences, r.2.executable)
  | _ => none

example : attachedOf (exSentAttached "L") = some ([.tuple [.str "named", .var "$3"], .tuple [.str "named", .var "$4"], .tuple [.str "topic", .var "$2"]],
    [.tuple [.str "show", .var "$1"]]) := by decide +kernel

theorem exSentAttached_ok : ∃ g roots c, composeSentence (exSentAttached "L") Gen.init = .ok g (roots, c) := by
  have h : (match composeSentence (exSentAttached "L") Gen.init with
    | .ok _ _ => true
    | _ => false) = true := by decide +kernel
  cases hr : composeSentence (exSentAttached "L") Gen.init with
  | ok g r => exact ⟨g, r.1, r.2, rfl⟩
  | err => rw [hr] at h; simp at h
  | oof => rw [hr] at h; simp at h

theorem exNpAttached_nodes (z : String) (ex : Bool) : innerNodes (exNpAttached z ex) = [([], exNpAttached z ex)] := rfl

theorem exSentAttached_nodes (z : String) : innerNodes (exSentAttached z) =
    [([0], exNpAttached z true), ([1], exNpAttached z false), ([], exSentAttached z)] := rfl

theorem exSentAttached_tidy : TidyTree (exSentAttached "L") := by
  have hleaf : TidyTree exLeafNode := by simp [exLeafNode, TidyTree, TidyTrees, semOf]
  have hnp : ∀ ex, TidyTree (exNpAttached "L" ex) := by
    intro ex
    simp only [exNpAttached, TidyTree, TidyTrees, hleaf, and_true]
    refine ⟨by simp, fun _ f sems s hf hs x hx => ?_⟩
    simp only [semOf, Option.some.injEq] at hf
    subst hf
    simp only [Except.ok.injEq] at hs
    subst hs
    refine .inr (.inl ⟨_, rfl, .tuple [.str "p", .var "X", .var "L"], by simp, ?_⟩)
    simp only [deepVars, deepVarsAll, List.nil_append, List.append_nil, List.mem_append, List.mem_singleton] at hx
    rcases hx with rfl | rfl <;> simp [topArgs]
  simp only [exSentAttached, TidyTree, TidyTrees, hnp, and_true]
  refine ⟨by simp, fun _ f sems s hf hs x hx => ?_⟩
  simp only [semOf, Option.some.injEq] at hf
  subst hf
  dsimp only at hs
  split at hs
  · rename_i np1 np2
    simp only [Except.ok.injEq] at hs
    subst hs
    simp only [deepVars] at hx
    obtain ⟨v, hv, hxv⟩ := deepVarsAll_mem.1 hx
    simp only [List.mem_append] at hv
    rcases hv with hv | hv
    · exact .inr (.inr (deepVarsAll_mem.2 ⟨.list np1, by simp, by simp only [deepVars]; exact deepVarsAll_mem.2 ⟨v, hv, hxv⟩⟩))
    · exact .inr (.inr (deepVarsAll_mem.2 ⟨.list np2, by simp, by simp only [deepVars]; exact deepVarsAll_mem.2 ⟨v, hv, hxv⟩⟩))
  · simp at hs

/-- The example meets all the hypotheses. -/
example : True := by
  obtain ⟨g, roots, c, h⟩ := exSentAttached_ok
  have h1 := C74_collected h
  have hnp : ∀ ex sems atoms, dialogOf (exNpAttached "L" ex).rule.sem sems = .ok atoms → TidyAtoms (exNpAttached "L" ex).rule sems atoms := by
    intro ex sems atoms hd f s hf hs x hx
    simp only [exNpAttached, ParseTree.rule, dialogOf, Except.ok.injEq] at hd
    simp only [exNpAttached, ParseTree.rule, semOf, Option.some.injEq] at hf
    subst hd hf
    simp only [Except.ok.injEq] at hs
    subst hs
    refine .inr (.inl ⟨_, rfl, .tuple [.str "p", .var "X", .var "L"], by simp, ?_⟩)
    simp only [deepVars, deepVarsAll, List.nil_append, List.append_nil, List.mem_singleton] at hx
    simp [hx, topArgs]
  have h2 := C74_names_partial exSentAttached_tidy (by simp [exSentAttached, ParseTree.children])
    (by
      rw [exSentAttached_nodes]
      show ∀ pn ∈ [([0], exNpAttached "L" true), ([1], exNpAttached "L" false), ([], exSentAttached "L")], _
      simp only [List.mem_cons, List.not_mem_nil, or_false]
      rintro pn (rfl | rfl | rfl) x hx <;>
        simp [formalNames, exNpAttached, exSentAttached, ParseTree.rule, argNames, exConst] at hx
      · subst hx; decide
      · subst hx; decide
      · rcases hx with rfl | rfl <;> decide)
    (by
      rw [exSentAttached_nodes]
      simp only [List.mem_cons, List.not_mem_nil, or_false]
      rintro pn (rfl | rfl | rfl) sems atoms hd
      · exact hnp _ _ _ hd
      · exact hnp _ _ _ hd
      · intro f s hf hs x hx
        simp only [exSentAttached, ParseTree.rule, dialogOf, Except.ok.injEq] at hd
        subst hd
        simp only [deepVars, deepVarsAll, List.nil_append, List.append_nil, List.mem_singleton] at hx
        subst hx
        left
        decide)
    (by
      rw [exSentAttached_nodes]
      simp only [List.mem_cons, List.not_mem_nil, or_false]
      rintro pn (rfl | rfl | rfl) e he sems atoms hd f s hf hs x hx
      · simp only [exNpAttached, ParseTree.rule, execOf, ↓reduceIte, Option.some.injEq] at he
        subst he
        simp only [Except.ok.injEq] at hd
        subst hd
        simp only [deepVars, deepVarsAll, List.nil_append, List.append_nil, List.mem_singleton] at hx
        subst hx
        left
        decide
      · simp [exNpAttached, ParseTree.rule, execOf] at he
      · simp [exSentAttached, ParseTree.rule, execOf] at he) h
  trivial

/-- **C74** (names) in full is false: the dialog atom of the noun phrases is about `Y`, which the noun phrase does not use otherwise. It is not named
there, and is taken for the `Y` of the sentence. -/
theorem C74_capture : attachedOf (exSentAttached "Y") = some ([.tuple [.str "named", .var "$2"], .tuple [.str "named", .var "$2"],
    .tuple [.str "topic", .var "$2"]], [.tuple [.str "show", .var "$1"]]) := by decide +kernel

/-! # C75: a rule without meaning is reported before anything is composed -/

/-- A node occurs in a tree. -/
inductive OccursIn (n : ParseTree Attachment) : ParseTree Attachment → Prop
  | here : OccursIn n n
  | child {t c : ParseTree Attachment} : c ∈ t.children → OccursIn n c → OccursIn n t

/-- Some node that is not a word has a rule without `sem`. -/
def LacksSem (t : ParseTree Attachment) : Prop := ∃ cat cs r, OccursIn (.node cat cs [] r) t ∧ semOf r.sem = none

theorem occursIn_node {n : ParseTree Attachment} {cat form : Str} {cs : List (ParseTree Attachment)} {r : GRule Attachment} :
    OccursIn n (.node cat cs form r) ↔ n = .node cat cs form r ∨ ∃ c ∈ cs, OccursIn n c := by
  constructor
  · intro h
    cases h with
    | here => exact .inl rfl
    | child hc h => exact .inr ⟨_, hc, h⟩
  · rintro (rfl | ⟨c, hc, h⟩)
    · exact .here
    · exact .child hc h

mutual
theorem checkForSem_iff : ∀ (t : ParseTree Attachment), checkForSem t = false ↔ LacksSem t
  | .node cat cs form r => by
    have ih := checkAllForSem_iff cs
    rw [checkForSem, Bool.and_eq_false_iff, ih]
    simp only [Bool.not_eq_false', Bool.and_eq_true, List.isEmpty_iff, Option.isNone_iff_eq_none, LacksSem, occursIn_node]
    constructor
    · rintro (⟨rfl, h⟩ | ⟨t, ht, cat', cs', r', ho, hs⟩)
      · exact ⟨cat, cs, r, .inl rfl, h⟩
      · exact ⟨cat', cs', r', .inr ⟨t, ht, ho⟩, hs⟩
    · rintro ⟨cat', cs', r', h | ⟨c, hc, ho⟩, hs⟩
      · cases h
        exact .inl ⟨rfl, hs⟩
      · exact .inr ⟨c, hc, cat', cs', r', ho, hs⟩
theorem checkAllForSem_iff : ∀ (ts : List (ParseTree Attachment)), checkAllForSem ts = false ↔ ∃ t ∈ ts, LacksSem t
  | [] => by simp [checkAllForSem]
  | t :: ts => by
    rw [checkAllForSem, Bool.and_eq_false_iff, checkForSem_iff t, checkAllForSem_iff ts]
    simp
end

/-- **C75**. If some node other than a word has a rule without `sem`, at whatever depth, the composer raises its exception at once: no variable has
been generated. -/
theorem C75_reported {t : ParseTree Attachment} (h : LacksSem t) (g : Gen) :
    composeSentence t g = .err g (.exception "Rule is missing key 'sem'") := by
  rw [composeSentence, (checkForSem_iff t).2 h]
  rfl

/-- A tree as the parser makes it: nodes other than words have an empty form. -/
def WordsAtLeaves (t : ParseTree Attachment) : Prop := ∀ cat cs form r, OccursIn (.node cat cs form r) t → cs ≠ [] → form = []

/-- What can be wrong with the rules of a tree. A function of a rule raises an exception; a constituent has fewer arguments than the rule used for it;
an element of a meaning that is a list is neither an atom nor a text. -/
inductive Blame (t : ParseTree Attachment) : Err → Prop
  | sem {n f sems e} : OccursIn n t → semOf n.rule.sem = some f → f sems = .error e → Blame t e
  | dialog {n sems e} : OccursIn n t → dialogOf n.rule.sem sems = .error e → Blame t e
  | exec {n f sems e} : OccursIn n t → execOf n.rule.sem = some f → f sems = .error e → Blame t e
  | args {n c : ParseTree Attachment} {i : Nat} {k : Constituent} : OccursIn n t → n.children[i]? = some c → c.children ≠ [] → n.rule.cons[i]? = some k →
      k.args.length < c.rule.ante.args.length → Blame t .indexError
  | atom {n f sems atoms a} : OccursIn n t → semOf n.rule.sem = some f → f sems = .ok (.list atoms) → a ∈ atoms →
      (∀ xs, a ≠ .tuple xs ∧ a ≠ .list xs) → (∀ s, a ≠ .str s) → Blame t .typeError

theorem occursIn_trans {n m t : ParseTree Attachment} (h1 : OccursIn n m) (h2 : OccursIn m t) : OccursIn n t := by
  induction h2 with
  | here => exact h1
  | child hc _ ih => exact .child hc ih

theorem Blame.above {t u : ParseTree Attachment} {e : Err} (h : Blame t e) (ho : OccursIn t u) : Blame u e := by
  cases h with
  | sem a b c => exact .sem (occursIn_trans a ho) b c
  | dialog a b => exact .dialog (occursIn_trans a ho) b
  | exec a b c => exact .exec (occursIn_trans a ho) b c
  | args a b c d e => exact .args (occursIn_trans a ho) b c d e
  | atom a b c d e f => exact .atom (occursIn_trans a ho) b c d e f

/-- The computation returns, or raises an exception that satisfies `P`. -/
def RaisesOnly {α : Type} (P : Err → Prop) (x : M Gen α) (g : Gen) : Prop := match x g with
  | .ok _ _ => True
  | .err _ e => P e
  | .oof => False

theorem raisesOnly_bind {α β : Type} {P : Err → Prop} {x : M Gen α} {f : α → M Gen β} {g : Gen} (hx : RaisesOnly P x g)
    (hf : ∀ g1 a, x g = .ok g1 a → RaisesOnly P (f a) g1) : RaisesOnly P (x >>= f) g := by
  unfold RaisesOnly at hx ⊢
  rw [M.bind_run]
  cases h : x g with
  | ok g1 a => exact hf g1 a h
  | err g1 e => rw [h] at hx; exact hx
  | oof => rw [h] at hx; exact hx

theorem raisesOnly_lift {α : Type} {P : Err → Prop} {x : Except Err α} {g : Gen} (h : ∀ e, x = .error e → P e) : RaisesOnly P (M.lift x) g := by
  cases x with
  | ok a => trivial
  | error e => exact h e rfl

theorem raisesOnly_pure {α : Type} {P : Err → Prop} {a : α} {g : Gen} : RaisesOnly P (pure a : M Gen α) g := trivial

theorem raisesOnly_consMap {P : Err → Prop} (as : List String) (d : Dict String) (g : Gen) : RaisesOnly P (consMap as d) g := by
  induction as generalizing d g with
  | nil => exact raisesOnly_pure
  | cons a as ih =>
    rw [consMap]
    split
    · exact ih d g
    · exact raisesOnly_bind trivial fun _ _ _ => ih _ _

theorem anteMap_error {as inc : List String} {d : Dict String} {e : Err} (h : anteMap as inc d = .error e) :
    e = .indexError ∧ inc.length < as.length := by
  induction as generalizing inc d with
  | nil => simp [anteMap] at h
  | cons a as ih =>
    cases inc with
    | nil =>
      simp only [anteMap, Except.error.injEq] at h
      exact ⟨h.symm, by simp⟩
    | cons v vs =>
      obtain ⟨h1, h2⟩ := ih h
      exact ⟨h1, by simpa using h2⟩

theorem anteMap_ok {as inc : List String} {d d' : Dict String} (h : anteMap as inc d = .ok d') : as.length ≤ inc.length := by
  induction as generalizing inc d with
  | nil => simp
  | cons a as ih =>
    cases inc with
    | nil => simp [anteMap] at h
    | cons v vs => simpa using ih h

theorem raisesOnly_extendArgs {P : Err → Prop} (as : List Value) (d : Dict String) (g : Gen) : RaisesOnly P (extendArgs as d) g := by
  induction as generalizing d g with
  | nil => exact raisesOnly_pure
  | cons a as ih =>
    cases a with
    | var x =>
      rw [extendArgs]
      split
      · exact raisesOnly_bind trivial fun _ _ _ => ih _ _
      · exact ih d g
    | _ => exact ih d g

theorem raisesOnly_extendAtoms {P : Err → Prop} (as : List Value) (d : Dict String) (g : Gen)
    (h : ∀ a ∈ as, (∀ xs, a ≠ .tuple xs ∧ a ≠ .list xs) → (∀ s, a ≠ .str s) → P .typeError) : RaisesOnly P (extendAtoms as d) g := by
  induction as generalizing d g with
  | nil => exact raisesOnly_pure
  | cons a as ih =>
    rw [extendAtoms]
    refine raisesOnly_bind (raisesOnly_lift fun e he => ?_) fun _ _ _ =>
      raisesOnly_bind (raisesOnly_extendArgs _ _ _) fun _ _ _ => ih _ _ fun a ha => h a (List.mem_cons_of_mem _ ha)
    have := h a (by simp)
    cases a <;> simp only [iterItems, Except.error.injEq, reduceCtorEq] at he <;> subst he <;> exact this (by simp) (by simp)

theorem mapAll_error {d : Dict String} {as : List String} {e : Err} (h : mapAll d as = .error e) : ∃ a ∈ as, d.get a = none := by
  induction as generalizing e with
  | nil => simp [mapAll] at h
  | cons a as ih =>
    rw [mapAll] at h
    cases hd : d.get a with
    | none => exact ⟨a, by simp, hd⟩
    | some v =>
      cases hm : mapAll d as with
      | error e' =>
        obtain ⟨b, hb, h2⟩ := ih hm
        exact ⟨b, List.mem_cons_of_mem _ hb, h2⟩
      | ok vs => simp [hd, hm] at h

mutual
theorem compose_raises : ∀ (t u : ParseTree Attachment) (inc : List String) (g : Gen), OccursIn t u → ¬ LacksSem u → WordsAtLeaves u →
    t.children ≠ [] → t.rule.ante.args.length ≤ inc.length → RaisesOnly (Blame u) (compose t inc) g
  | .node cat cs form r, u, inc, g, ho, hl, hw, hne, hlen => by
    rw [compose]
    refine raisesOnly_bind (raisesOnly_bind (raisesOnly_lift fun e he => ?_) fun _ _ _ => raisesOnly_consMap _ _ _) fun g1 d hd => ?_
    · have := (anteMap_error he).2
      simp only [argNames, List.length_map] at this
      simp only [ParseTree.rule] at hlen
      omega
    refine raisesOnly_bind (composeChildren_raises cs r.cons d 0 _ g1 (.node cat cs form r) u ho (fun j => by simp [ParseTree.children])
      (fun j => by simp [ParseTree.rule]) hl hw fun k hk x hx => (createMap_spec hd).2.2.2 k hk x hx) fun g2 parts _ => ?_
    cases hsem : semOf r.sem with
    | none =>
      exfalso
      have hform := hw cat cs form r ho hne
      subst hform
      exact hl ⟨cat, cs, r, ho, hsem⟩
    | some f =>
      refine raisesOnly_bind (raisesOnly_lift fun e he => Blame.sem ho hsem he) fun _ s hs => ?_
      rw [M.lift_eq_ok] at hs
      refine raisesOnly_bind (raisesOnly_lift fun e he => ?_) fun _ _ _ => ?_
      · cases hx : execOf r.sem with
        | none => simp [execResult, hx] at he
        | some x =>
          simp only [execResult, hx] at he
          exact Blame.exec ho hx he
      refine raisesOnly_bind (raisesOnly_lift fun e he => Blame.dialog ho he) fun _ _ _ => ?_
      refine raisesOnly_bind ?_ fun _ _ _ => raisesOnly_pure
      cases s with
      | list atoms => exact raisesOnly_extendAtoms _ _ _ fun a ha h1 h2 => Blame.atom ho hsem hs.2 ha h1 h2
      | _ => exact raisesOnly_pure
theorem composeChildren_raises : ∀ (cs : List (ParseTree Attachment)) (ks : List Constituent) (d : Dict String) (i : Nat) (acc : ChildParts)
    (g : Gen) (n u : ParseTree Attachment), OccursIn n u → (∀ j : Nat, n.children[i + j]? = cs[j]?) → (∀ j : Nat, n.rule.cons[i + j]? = ks[j]?) →
    ¬ LacksSem u → WordsAtLeaves u → (∀ k ∈ ks, ∀ x ∈ argNames k, ∃ v, d.get x = some v) → RaisesOnly (Blame u) (composeChildren cs ks d i acc) g
  | [], ks, d, i, acc, g, n, u, _, _, _, _, _, _ => by
    rw [composeChildren]
    exact raisesOnly_pure
  | c :: cs, [], d, i, acc, g, n, u, _, _, _, _, _, _ => by
    rw [composeChildren]
    exact raisesOnly_pure
    all_goals simp
  | .node cat cs form r :: rest, k :: ks, d, i, acc, g, n, u, ho, hcs, hks, hl, hw, hd => by
    have hc0 : n.children[i]? = some (.node cat cs form r) := by simpa using hcs 0
    have hk0 : n.rule.cons[i]? = some k := by simpa using hks 0
    have hoc : OccursIn (.node cat cs form r) u := occursIn_trans (.child (List.mem_of_getElem? hc0) .here) ho
    have hrest : ∀ acc g, RaisesOnly (Blame u) (composeChildren rest ks d (i + 1) acc) g := fun acc g =>
      composeChildren_raises rest ks d (i + 1) acc g n u ho
        (fun j => by simpa [Nat.add_assoc, Nat.add_comm 1 j] using hcs (j + 1))
        (fun j => by simpa [Nat.add_assoc, Nat.add_comm 1 j] using hks (j + 1)) hl hw fun k hk => hd k (List.mem_cons_of_mem _ hk)
    rw [composeChildren]
    split
    · cases hsem : semOf r.sem with
      | none => exact hrest _ _
      | some f => exact raisesOnly_bind (raisesOnly_lift fun e he => Blame.sem hoc hsem he) fun _ _ _ => hrest _ _
    · rename_i hne
      have hne : (ParseTree.node cat cs form r).children ≠ [] := by simpa [ParseTree.children] using hne
      refine raisesOnly_bind (raisesOnly_lift fun e he => ?_) fun g1 inc hinc => ?_
      · exfalso
        obtain ⟨a, ha, hn⟩ := mapAll_error he
        obtain ⟨v, hv⟩ := hd k (by simp) a ha
        rw [hn] at hv
        cases hv
      · rw [M.lift_eq_ok] at hinc
        obtain ⟨rfl, hinc⟩ := hinc
        by_cases hlen : r.ante.args.length ≤ inc.length
        · exact raisesOnly_bind (compose_raises _ u inc _ hoc hl hw hne hlen) fun _ _ _ => hrest _ _
        · have hb : Blame u .indexError := by
            refine Blame.args ho hc0 hne hk0 ?_
            have := (mapAll_get hinc).1
            simp only [argNames, List.length_map] at this
            simp only [ParseTree.rule]
            omega
          refine raisesOnly_bind ?_ fun _ _ _ => hrest _ _
          unfold RaisesOnly
          rw [compose, M.bind_run, createMap, M.bind_run]
          cases hm : anteMap (argNames r.ante) inc [] with
          | error e =>
            obtain ⟨rfl, _⟩ := anteMap_error hm
            exact hb
          | ok d =>
            have := anteMap_ok hm
            simp only [argNames, List.length_map] at this
            omega
end

/-- **C75** (blame). If all rules have a meaning, composition returns, or raises an exception for which a rule of the tree is to blame:
one that its own function raised, an `IndexError` for a constituent with too few arguments, or a `TypeError` for an element of a
meaning that is not an atom. -/
theorem C75_blame {t : ParseTree Attachment} (hl : ¬ LacksSem t) (hw : WordsAtLeaves t) (hne : t.children ≠ []) (g : Gen) :
    match composeSentence t g with
    | .ok _ _ => True
    | .err _ e => Blame t e
    | .oof => False := by
  have hc : checkForSem t = true := by
    cases h : checkForSem t with
    | true => rfl
    | false => exact absurd ((checkForSem_iff t).1 h) hl
  have hn : ∀ (as : List Str) (P : Err → Prop) g, RaisesOnly P (nextVars as) g := by
    intro as P
    induction as with
    | nil => exact fun g => raisesOnly_pure
    | cons a as ih => exact fun g => raisesOnly_bind trivial fun _ _ _ => raisesOnly_bind (ih _) fun _ _ _ => raisesOnly_pure
  have key : RaisesOnly (Blame t) (composeSentence t) g := by
    rw [composeSentence, hc]
    refine raisesOnly_bind (hn _ _ _) fun g1 roots hr => raisesOnly_bind (compose_raises t t roots g1 .here hl hw hne ?_) fun _ _ _ => raisesOnly_pure
    have := (nextVars_roots hr).2.1
    omega
  unfold RaisesOnly at key
  cases h : composeSentence t g <;> rw [h] at key <;> exact key

/-- `np(X) -> 'x'` without `sem`, below the sentence of `exS2`. -/
def exNoSem : ParseTree Attachment := .node ['s'] [exNp2, .node ['n', 'p'] [exLeafNode] []
  ⟨exConst ['n', 'p'] [['X']], [⟨['x'], [], .word, false, false⟩], .none, 0, 0⟩] [] exS2.rule

example : composeSentence exNoSem Gen.init = .err Gen.init (.exception "Rule is missing key 'sem'") :=
  C75_reported ⟨_, _, _, .child (List.mem_cons_of_mem _ (List.mem_singleton.2 rfl)) .here, rfl⟩ _

theorem exS2_shape : ¬ LacksSem exS2 ∧ WordsAtLeaves exS2 := by
  constructor
  · intro h
    have := (checkForSem_iff exS2).2 h
    revert this
    decide +kernel
  · intro cat cs form r h hne
    simp only [exS2, exNp2, exLeafNode, occursIn_node, List.mem_cons, List.not_mem_nil, or_false, exists_eq_left, ParseTree.node.injEq,
      or_self, false_and, exists_false] at h
    rcases h with h | h | h
    · exact h.2.2.1
    · exact h.2.2.1
    · exact absurd h.2.1 hne

example : True := by
  have := C75_blame exS2_shape.1 exS2_shape.2 (List.cons_ne_nil _ _) Gen.init
  trivial

end Verif
