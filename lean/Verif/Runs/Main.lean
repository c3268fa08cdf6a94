import Verif.Runs.Sir
import Verif.Runs.Chat80
import Verif.Runs.Cooper
import Verif.Runs.HelloWorld

/-! The program that `tools/runs.sh` compiles. -/

/-- Run the dialogs of `tests/integration`; the number of replies that are not those of the tests. -/
def main : IO UInt32 := do
  let mut bad := 0
  IO.println "tests/integration/hello_world"
  bad := bad + (← Verif.Runs.HelloWorld.play)
  IO.println "tests/integration/cooper"
  bad := bad + (← Verif.Runs.Cooper.play)
  IO.println "tests/integration/chat80"
  bad := bad + (← Verif.Runs.Chat80.play)
  IO.println "tests/integration/sir"
  bad := bad + (← Verif.Runs.Sir.play)
  IO.println s!"{bad} other replies"
  return if bad = 0 then 0 else 1
