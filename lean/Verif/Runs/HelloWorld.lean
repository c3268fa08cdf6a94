import Verif.Runs.Chat80

/-!
# The dialog of `tests/integration/hello_world`

A test of the model, see `Verif.Runs.Tools`.
-/

namespace Verif.Runs.HelloWorld
open Verif.Runs.Chat80 (World li lo ld formatElements plural)

/-- `tests/integration/hello_world/read_grammar.py:8-29`. -/
def readRules : List (SimpleRule Attachment) := [
  r "s(E1) -> 'hello' 'world'" (s0 (l [atom "intent_hello" []])),
  r "s(E1) -> 'what' nbar(E1) 'are' 'there' + '?'" (s1 fun nbar => .ok (l [atom "intent_list" [e1, nbar]])),
  r "nbar(E1) -> noun(E1)" (s1 .ok),
  rd "noun(E1) -> 'river'" (s0 (l [atom "river" [E1]])) [atom "dialog_isa" [e1, .str "river"]],
  r "noun(E1) -> plural_noun(E1)'" (s1 .ok),
  plural "plural_noun(E1) -> /\\w+/+'s'" ""]

/-- `tests/integration/hello_world/write_grammar.py:4-16`. -/
def writeDicts : List WriteDict := [
  wr "s() -> 'Hi there!'" [ot "hi"],
  ⟨some "s() -> format(E1)".toList, some [ot "list", atom "output_list" [E1]], some formatElements, none, none⟩]

/-- `tests/integration/hello_world/HelloWorldModule.py:7-19`. -/
def facts : Module World := ⟨fun _ p => if p = "river" then some
  { predicate := "river"
    query := fun v _ => pure (.rows ((((helloRiver.splitOn "\n").drop 1).map fun line => [Value.str ((line.splitOn ",").headD "")]).filter fun row =>
      v.zip row |>.all fun (a, b) => a = .none || a = b)) } else none⟩

/-- `tests/integration/hello_world/test.py:36-85`. -/
def system : Sys World where
  read := readRules
  write := writeDicts
  regex _ s := longest isW s
  modules := [facts, inferenceModule li, outputBuffer lo, dialogContext ld]
  out := lo

/-- The world at the start. -/
def world : Except String World := do
  let i ← importRules helloInferences .init
  let j ← importRules helloIntents i
  return ⟨j, [], dialogInit⟩

/-- Whether all replies are those of the test. -/
def passes : Bool :=
  match world with
  | .ok w => (system.test helloTests w).isSome
  | .error _ => false

#guard passes

/-- The dialog with a report. -/
def play : IO Nat := do
  match world with
  | .ok w => return (← system.play helloTests w).1
  | .error e => IO.println e; return 1

end Verif.Runs.HelloWorld
