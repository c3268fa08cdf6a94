"""Mutation test with generated edits.

Usage: python3 tools/automutate.py SEED COUNT OUT.jsonl
Small edits (boundaries, negated conditions, swapped arguments, dropped steps) are generated for all definitions of the model; COUNT of them are
drawn at random. For each, a scratch copy of the Lean project, without the runs of `Verif/Runs`, is edited and built until the first
declaration other than the edited one fails. Edits that do not type-check are left out.
"""
import json, os, random, re, shutil, signal, subprocess, sys

SRC = '/verif/lean'
BASE = '/tmp/mut/autobase'
DST = '/tmp/mut/auto'
MODELS = ("Value Dict Atoms Core Solver Inference InferenceSyntax Lexer Grammar GrammarSyntax Earley Composer Optimizer Pipeline Processors Generator "
          "Conversation DataSource Languages Logging Repr RuleText SqlSources Stats Digits Small Tables").split()
OPS = [(r' < ', ' ≤ '), (r' ≤ ', ' < '), (r' > ', ' ≥ '), (r' ≥ ', ' > '), (r' && ', ' || '), (r' \|\| ', ' && '),
       (r' = (?=[^>]*then)', ' ≠ '), (r' ≠ ', ' = '), (r' \+ 1\b', ' + 2'), (r' \+ 1\b', ''), (r' - 1\b', ''), (r'\btrue\b', 'false'), (r'\bfalse\b', 'true'),
       (r"\b([a-z][\w.']*) \+\+ ([a-z][\w.']*)", r'\2 ++ \1'), (r" \+\+ [a-z][\w.']*", ''), (r"\b[a-z][\w.']* \+\+ ", ''),
       (r'\bif ([^\n]*?) then', r'if ¬ (\1) then'), (r'\.reverse\b', ''), (r'!(?=[\w(])', ''), (r'\.typeError', '.indexError'),
       (r"\b([a-z]\w*) ([a-z]\w*)(?=[\s)\]])", r'\2 \1'), (r"(?<=\w )([a-z]\w*) ([a-z]\w*)(?=[\s)\]])", r'\2 \1'), (r'\n    (?:let _ ← |sqlDo )[^\n]*', ''),
       (r'\.any\b', '.all'), (r'\.all\b', '.any'), (r'\bsome (\w+) => (?!none)[^\n|]*', r'some \1 => none'), (r'\.headD\b', '.getLastD'), (r'\.drop 1\b', ''),
       (r':: (\w+)\b(?! =>)', r':: []')]


def definitions():
    for m in MODELS:
        s = open('%s/Verif/%s.lean' % (SRC, m)).read()
        for d in re.finditer(r"^(?:@\[[^\]]*\] )?def (?P<n>[\w.']+)(?P<b>.*?)(?=^(?:/--|/-!|end\b|section\b|mutual\b|theorem\b|@\[|namespace\b|variable\b|def\b|instance\b|abbrev\b|example\b)|\Z)", s, re.M | re.S):
            yield m, d.group('n'), s, d.start('b'), d.end('b')


def mutants():
    for m, name, s, a, b in definitions():
        body = s[a:b]
        k = re.search(r':=|\n  \|| where\b', body)
        if not k:
            continue
        start = k.start()
        seen = set()
        for pat, rep in OPS:
            for x in re.finditer(pat, body[start:]):
                old = x.group(0)
                new = x.expand(rep) if '\\' in rep else rep
                if old == new:
                    continue
                res = body[:start + x.start()] + new + body[start + x.end():]
                if res in seen:
                    continue
                seen.add(res)
                i = a + start + x.start()
                line = s[s.rfind('\n', 0, i) + 1:i]
                if '/-' in line or '--' in line or line.count('"') % 2 == 1 and '.exception' in line:
                    continue
                l0 = s.rfind('\n', 0, i) + 1
                l1 = s.find('\n', a + start + x.end())
                yield dict(module=m, name=name, text=s[:a] + res + s[b:], old=s[l0:l1].strip(), new=(s[l0:i] + new + s[a + start + x.end():l1]).strip(),
                           first=s[:a].count('\n') + 1, last=s[:a].count('\n') + 1 + res.count('\n'))


def decl_at(path, line):
    lines = open(path).read().split('\n')
    for i in range(min(line, len(lines)) - 1, -1, -1):
        m = re.match(r'(?:@\[[^\]]*\] )?(?:private )?(theorem|def|instance|abbrev|structure|inductive|example)\b\s*([^\s:({\[]*)', lines[i])
        if m:
            return m.group(2) if m.group(1) != 'example' else 'example (%s:%d)' % (os.path.basename(path), i + 1)
    return '?'


def main():
    seed, count = int(sys.argv[1]), int(sys.argv[2])
    out = open(sys.argv[3], 'a')
    if not os.path.exists(BASE):
        subprocess.run(['cp', '-a', SRC, BASE], check=True)
        shutil.rmtree(BASE + '/Verif/Runs', ignore_errors=True)
        p = BASE + '/Verif.lean'
        t = '\n'.join(l for l in open(p).read().split('\n') if not l.startswith('import Verif.Runs'))
        open(p, 'w').write(t)
        subprocess.run(['lake', 'build'], cwd=BASE, check=True, capture_output=True)
    allm = list(mutants())
    by = {}
    for x in allm:
        by.setdefault((x['module'], x['name']), []).append(x)
    print(len(allm), 'edits of', len(by), 'definitions', flush=True)
    rnd = random.Random(seed)
    keys = sorted(by)
    rnd.shuffle(keys)
    done = 0
    for key in keys:
        if done >= count:
            break
        tried = rnd.sample(by[key], min(4, len(by[key])))
        for x in tried:
            if attempt(x, out):
                done += 1
                break


def attempt(x, out):
    shutil.rmtree(DST, ignore_errors=True)
    subprocess.run(['cp', '-a', BASE, DST], check=True)
    path = '%s/Verif/%s.lean' % (DST, x['module'])
    open(path, 'w').write(x['text'])
    r = subprocess.Popen(['lake', 'build'], cwd=DST, stdout=subprocess.PIPE, stderr=subprocess.STDOUT, text=True, start_new_session=True)
    invalid, failed = False, []
    for line in r.stdout:
        m = re.search(r'error: (Verif/\S+?\.lean):(\d+):\d+', line)
        if m:
            f, l = m.group(1), int(m.group(2))
            if f == 'Verif/%s.lean' % x['module'] and x['first'] - 2 <= l <= x['last']:
                invalid = True
                break
            d = decl_at(DST + '/' + f, l)
            if d not in failed:
                failed.append(d)
            if f != 'Verif/%s.lean' % x['module']:
                break
    try:
        os.killpg(r.pid, signal.SIGKILL)
    except ProcessLookupError:
        pass
    r.wait()
    if invalid:
        return False
    print('SURVIVED' if not failed else 'ok', x['module'], x['name'], '|', x['old'], '==>', x['new'], '|', failed[:4], flush=True)
    out.write(json.dumps(dict(definition=x['name'], edit='%s  ==>  %s' % (x['old'], x['new']), breaks='the model no longer does what the cited lines do (generated edit)',
                              failed=failed, not_checked_because_a_lemma_failed=['the build was stopped at the first failing module'] if failed else [], tightened=[])) + '\n')
    out.flush()
    return True


main()
