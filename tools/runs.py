"""Writes lean/Verif/Runs/Texts.lean: rule files, tables and dialogs of the integration tests, copied from the repository. Then checks that
every "syn" text of the grammars of these tests occurs in the module that has the grammar."""
import ast, csv, os, re, sys
repo = sys.argv[1] if len(sys.argv) > 1 else "/repo"
tests = os.path.join(repo, "tests", "integration")
runs = os.path.join(os.path.dirname(os.path.abspath(__file__)), "..", "lean", "Verif", "Runs")


def lit(s):
    return '"' + s.replace("\\", "\\\\").replace('"', '\\"').replace("\n", "\\n") + '"'


def val(v):
    if isinstance(v, str):
        return ".str " + lit(v)
    if isinstance(v, list):
        return ".list [" + ", ".join(val(x) for x in v) + "]"
    return ".num %d" % v


out = ["import Verif.Value", "", "/-!", "# Texts of the integration tests", "",
       "Written by `tools/runs.py`: rule files, tables and dialogs, copied from `tests/integration`.", "-/", "", "namespace Verif.Runs", ""]


def file(name, path):
    out.append("/-- `tests/integration/%s`. -/" % path)
    out.append("def %s : String :=\n  %s\n" % (name, lit(open(os.path.join(tests, path)).read())))


def dialog(name, path, key):
    src = open(os.path.join(tests, path)).read()
    m = re.search(key + r" = (\[.*?\n        \])", src, re.S)
    lines = [src[:k].count("\n") + 1 for k in (m.start(), m.end())]
    out.append("/-- `tests/integration/%s:%d-%d`. -/" % (path, *lines))
    out.append("def %s : List (String × Value) := [\n%s]\n" % (name, ",\n".join(
        "  (%s, %s)" % (lit(a), val(b)) for a, b in ast.literal_eval(m.group(1)))))


def table(name, path):
    rows = [r for r in csv.reader(open(os.path.join(tests, path))) if r]
    out.append("/-- `tests/integration/%s`, without empty lines. -/" % path)
    out.append("def %s : String :=\n  %s\n" % (name, lit("\n".join(",".join(r) for r in rows))))


file("sirIntents", "sir/intents.pl")
file("sirInferences", "sir/inferences.pl")
dialog("sirTests", "sir/test.py", "tests")
file("chatInferences", "chat80/inferences.pl")
file("chatIntents", "chat80/intents.pl")
dialog("chatTests", "chat80/test.py", "tests")
for t in "continent ocean sea river city country contains borders".split():
    table("chat" + t.capitalize(), "chat80/resources/%s.csv" % t)
file("cooperInferences", "cooper/inferences.pl")
dialog("cooperTests1", "cooper/test.py", "tests1")
dialog("cooperTests2", "cooper/test.py", "tests2")
file("helloInferences", "hello_world/inferences.pl")
file("helloIntents", "hello_world/intents.pl")
dialog("helloTests", "hello_world/test.py", "tests")
table("helloRiver", "hello_world/resources/river.csv")
out.append("end Verif.Runs")
open(os.path.join(runs, "Texts.lean"), "w").write("\n".join(out) + "\n")

for module, paths in [("Sir", ["sir/read_grammar.py", "sir/write_grammar.py"]), ("Chat80", ["chat80/read_grammar.py", "chat80/write_grammar.py"]),
                      ("Cooper", ["cooper/read_grammar1.py", "cooper/read_grammar2.py", "cooper/write_grammar.py"]),
                      ("HelloWorld", ["hello_world/read_grammar.py", "hello_world/write_grammar.py"])]:
    text = open(os.path.join(runs, module + ".lean")).read()
    n = 0
    for path in paths:
        for s in re.findall(r'"syn":\s*"((?:[^"\\]|\\.)*)"', open(os.path.join(tests, path)).read()):
            syn = s.replace("\\\\", "\\")
            n += 1
            if lit(syn) not in text:
                print("missing in", module, syn)
    print(module, n, "rules")
