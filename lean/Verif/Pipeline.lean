import Verif.Core
import Verif.DataSource

/-!
# Blocks, requests and the system (`richard/block`, `richard/core/System.py`, `richard/entity/SentenceRequest.py`)
-/

namespace Verif

/-- Models `richard/processor/semantic_composer/SemanticComposerProduct.py:6-11`. -/
structure ComposerProduct where
  iterations : List (String × Value)
  inferences : List Value
  executable : Value
  returnVariables : List String
  deriving DecidableEq, Repr

/-- Models `richard/processor/semantic_composer/SemanticComposerProduct.py:14-18` (`get_semantics_last_iteration`). -/
def ComposerProduct.lastIteration (p : ComposerProduct) : Value :=
  p.iterations.foldl (fun _ sem => sem.2) .none

/-- The products of the library's processors: `richard/processor/language_selector/LanguageSelectorProduct.py:7-9`,
`richard/processor/parser/BasicParserProduct.py:7-9`, `richard/processor/semantic_composer/SemanticComposerProduct.py:6-11`,
`richard/processor/semantic_executor/AtomExecutorProduct.py:5-8` (without the statistics, which are in `Verif.Stats`). `T` is the type of parse trees. -/
inductive Product (T : Type) where
  | locale (l : String)
  | parse (tree : T)
  | composed (p : ComposerProduct)
  | executed (bindings : SolOut)
  deriving Repr, DecidableEq

/-- Models `richard/entity/SentenceRequest.py:7-31`. Processors, the keys of the two dictionaries, are numbered. -/
structure Request (P : Type) where
  text : List Char
  current : Nat → Option P
  alternatives : Nat → Option (List P)

namespace Request
variable {P : Type}

/-- Models `richard/entity/SentenceRequest.py:25-29` (`__init__`). -/
def new (text : List Char) : Request P := ⟨text, fun _ => none, fun _ => none⟩

/-- Models `richard/entity/SentenceRequest.py:32-33` (`set_alternative_products`). -/
def setAlternatives (r : Request P) (i : Nat) (ps : List P) : Request P :=
  { r with alternatives := fun j => if j = i then some ps else r.alternatives j }

/-- Models `richard/entity/SentenceRequest.py:36-40` (`get_alternative_products`). -/
def getAlternatives (r : Request P) (i : Nat) : List P := (r.alternatives i).getD []

/-- Models `richard/entity/SentenceRequest.py:50-51` (`set_current_product`). -/
def setCurrent (r : Request P) (i : Nat) (p : P) : Request P :=
  { r with current := fun j => if j = i then some p else r.current j }

end Request

/-- Models `richard/entity/ProcessResult.py:4-9`. -/
structure ProcResult (P : Type) where
  products : List P
  errorType : String
  errorArgs : List Value
  deriving Repr, DecidableEq

/-- Models `richard/entity/BlockResult.py:4-8`. -/
structure BlockResult where
  errorType : String
  errorArgs : List Value
  deriving Repr, DecidableEq

/-- `BlockResult("")`. -/
def BlockResult.success : BlockResult := ⟨"", []⟩

/-- A processor (`richard/interface/SomeProcessor.py:11-20`): its number and its `process`. It reads the request and may act on the
world; it does not write the request (no processor of the library does). -/
structure Processor (P W : Type) where
  id : Nat
  process : Request P → M W (ProcResult P)

/-- The three control blocks. -/
inductive BlockKind where
  | findOne
  | findAll
  | tryFirst
  deriving Repr, DecidableEq

/-- Models `richard/entity/ControlBlock.py:8-18`; the next block is given by the position in the pipeline. -/
structure Block (P W : Type) where
  kind : BlockKind
  processor : Processor P W

section
variable {P W : Type}

/-- Run code that acts on the world only. -/
def onWorld {A α : Type} (m : M W α) : M (A × W) α := fun s =>
  match m s.2 with
  | .ok w a => .ok (s.1, w) a
  | .err w e => .err (s.1, w) e
  | .oof => .oof

/-- Models `richard/entity/SentenceRequest.py:43-47` (`exec_process`) without the logging. -/
def execProcess (p : Processor P W) : M (Request P × W) (ProcResult P) := fun s => onWorld (p.process s.1) s

/-- `request.set_current_product(self.processor, product)`, `richard/entity/SentenceRequest.py:50-51`. -/
def setCurrentProduct (i : Nat) (p : P) : M (Request P × W) Unit := M.modify fun s => (s.1.setCurrent i p, s.2)

/-- `request.set_alternative_products(...)`, `richard/entity/SentenceRequest.py:32-33`. -/
def setAlternativeProducts (i : Nat) (ps : List P) : M (Request P × W) Unit := M.modify fun s => (s.1.setAlternatives i ps, s.2)

/-- The loop of `richard/block/FindOne.py:22-34`; `last` are the variables `error_type`, `error_args`. -/
def findOneProducts (i : Nat) (next : M (Request P × W) BlockResult) : List P → BlockResult → M (Request P × W) BlockResult
  | [], last => pure last
  | p :: ps, _ => do
    setCurrentProduct i p
    let r ← next
    if r.errorType = "" then pure .success else findOneProducts i next ps ⟨r.errorType, r.errorArgs⟩

/-- Models `richard/block/FindOne.py:12-34`. -/
def findOne (proc : Processor P W) (next : M (Request P × W) BlockResult) : M (Request P × W) BlockResult := do
  let result ← execProcess proc
  if result.errorType ≠ "" then pure ⟨result.errorType, result.errorArgs⟩
  else do
    setAlternativeProducts proc.id result.products
    findOneProducts proc.id next result.products .success

/-- The loop of `richard/block/FindAll.py:24-38`; `success` and `err` are the local variables. -/
def findAllProducts (i : Nat) (next : M (Request P × W) BlockResult) : List P → Bool → BlockResult → M (Request P × W) BlockResult
  | [], success, err => pure (if success then .success else err)
  | p :: ps, success, err => do
    setCurrentProduct i p
    let r ← next
    findAllProducts i next ps (success || decide (r.errorType = ""))
      (if r.errorType ≠ "" ∧ err.errorType = "" then ⟨r.errorType, r.errorArgs⟩ else err)

/-- Models `richard/block/FindAll.py:12-38`. -/
def findAll (proc : Processor P W) (next : M (Request P × W) BlockResult) : M (Request P × W) BlockResult := do
  let result ← execProcess proc
  if result.errorType ≠ "" then pure ⟨result.errorType, result.errorArgs⟩
  else do
    let old ← M.gets fun s => s.1.getAlternatives proc.id
    setAlternativeProducts proc.id (old ++ result.products)
    findAllProducts proc.id next result.products false .success

/-- Models `richard/block/TryFirst.py:12-33`. -/
def tryFirst (proc : Processor P W) (next : M (Request P × W) BlockResult) : M (Request P × W) BlockResult := do
  let result ← execProcess proc
  if result.errorType ≠ "" then pure ⟨result.errorType, result.errorArgs⟩
  else do
    setAlternativeProducts proc.id result.products
    match result.products with
    | [] => pure .success
    | p :: _ =>
      setCurrentProduct proc.id p
      let r ← next
      pure ⟨r.errorType, r.errorArgs⟩

/-- One block, given the rest of the pipeline. -/
def Block.process (b : Block P W) (next : M (Request P × W) BlockResult) : M (Request P × W) BlockResult :=
  match b.kind with
  | .findOne => findOne b.processor next
  | .findAll => findAll b.processor next
  | .tryFirst => tryFirst b.processor next

/-- Blocks linked as in `richard/core/System.py:29-34`; the last one is followed by `Succeed` (`richard/block/Succeed.py:6-12`). -/
def runBlocks : List (Block P W) → M (Request P × W) BlockResult
  | [] => pure .success
  | b :: bs => b.process (runBlocks bs)

/-- Models `richard/core/System.py:37-50` (`enter`) with the solver `api` for the model. The result is the product of the last
processor; `product.get_output()`, a field of the product, is left out; a missing product is an `AttributeError`. -/
def enter (api : SolverApi W) (blocks : List (Block P W)) : M (Request P × W) (Option P) :=
  match blocks.getLast? with
  | none => M.throw .indexError
  | some last => do
    let result ← runBlocks blocks
    if result.errorType ≠ "" then do
      let _ ← onWorld (api.solve (.list [.tuple [.str "store", .list
        [.tuple [.str "output_type", .str result.errorType],
         .tuple (.str ("output_" ++ result.errorType) :: result.errorArgs)]]]) [])
      pure none
    else do
      let product ← M.gets fun s => s.1.current last.processor.id
      match product with
      | some p => pure (some p)
      | none => M.throw .attributeError

/-! ## Processors -/

variable {T : Type}

/-- Models `richard/processor/language_selector/LanguageSelector.py:24-26`. -/
def languageSelector (i : Nat) (locales : List String) : Processor (Product T) W where
  id := i
  process := fun _ => pure ⟨locales.map .locale, "", []⟩

/-- Models `richard/processor/language_selector/Multilingual.py:27-34`. A current product that is no locale, or none, is an
`AttributeError`. -/
def multilingual (i : Nat) (processors : Dict (Processor (Product T) W)) (selector : Nat) : Processor (Product T) W where
  id := i
  process := fun request =>
    match request.current selector with
    | some (.locale l) => match processors.get l with
      | none => M.throw (.exception "No processor available for locale")
      | some p => p.process request
    | _ => M.throw .attributeError

/-- The loop of `richard/processor/semantic_executor/AtomExecutor.py:35-36`. -/
def writeAll (api : SolverApi W) : List Value → M W Unit
  | [] => pure ()
  | a :: as => do
    api.writeAtom a
    writeAll api as

/-- Models `richard/processor/semantic_executor/AtomExecutor.py:30-45` with the solver `api`, without the statistics; with them it is `executeStats` in `Verif.Stats`. -/
def atomExecutor (i composer : Nat) (api : SolverApi W) : Processor (Product T) W where
  id := i
  process := fun request =>
    match request.current composer with
    | some (.composed incoming) => do
      writeAll api incoming.inferences
      let _ ← api.solve incoming.executable []
      let bindings ← api.solve incoming.lastIteration []
      pure ⟨[.executed bindings], "", []⟩
    | _ => M.throw .attributeError

end

end Verif
