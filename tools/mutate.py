"""Mutation test of the theorems.

Usage: python3 tools/mutate.py MUTANTS.py OUT.jsonl
MUTANTS.py defines a list `mutants` of tuples (definition, file, old text, new text, property, broken claim).
For each, a scratch copy of the Lean project is edited and rebuilt; the declarations whose check fails are reported, one JSON line each.
"""
import json, os, re, shutil, subprocess, sys

SRC = '/verif/lean'
BASE = '/tmp/mut/base'  # a built copy of SRC
DST = '/tmp/mut/lean'

def sync():
    shutil.rmtree(DST, ignore_errors=True)
    subprocess.run(['cp', '-a', BASE, DST], check=True)

def decl_at(path, line):
    lines = open(path).read().split('\n')
    for i in range(min(line, len(lines)) - 1, -1, -1):
        m = re.match(r'(?:@\[[^\]]*\] )?(?:private )?(theorem|def|instance|abbrev|structure|inductive|example)\b\s*([^\s:({\[]*)', lines[i])
        if m:
            return m.group(2) if m.group(1) != 'example' else 'example (%s:%d)' % (os.path.basename(path), i + 1)
    return '?'

def claims():
    return {c['property']: c for c in json.load(open('/verif/MANIFEST.json'))['claims']}

def module_imports():
    imp = {}
    for root, _, fs in os.walk(SRC + '/Verif'):
        for f in fs:
            if f.endswith('.lean'):
                p = os.path.join(root, f)
                name = os.path.relpath(p, SRC)[:-5].replace('/', '.')
                imp[name] = re.findall(r'^import (Verif\S*)', open(p).read(), re.M)
    return imp

def theorem_modules():
    where = {}
    for root, _, fs in os.walk(SRC + '/Verif'):
        for f in fs:
            if f.endswith('.lean'):
                p = os.path.join(root, f)
                name = os.path.relpath(p, SRC)[:-5].replace('/', '.')
                for m in re.finditer(r'^(?:theorem) (\S+)', open(p).read(), re.M):
                    where[m.group(1).split('.')[-1]] = name
    return where

def main():
    ns = {}
    exec(open(sys.argv[1]).read(), ns)
    out = open(sys.argv[2], 'a')
    if not os.path.exists(BASE):
        subprocess.run(['cp', '-a', SRC, BASE], check=True)
    cl = claims()
    where = theorem_modules()
    imp = module_imports()
    for definition, file, old, new, prop, claim in ns['mutants']:
        sync()
        path = os.path.join(DST, 'Verif', file)
        s = open(path).read()
        if s.count(old) < 1:
            print('NOT FOUND', definition, repr(old)); continue
        n = s.count(old)
        if n > 1:
            # the occurrence after the definition's name
            i = s.index('def ' + definition.split(' ')[0])
            j = s.index(old, i)
        else:
            j = s.index(old)
        open(path, 'w').write(s[:j] + new + s[j + len(old):])
        r = subprocess.run(['lake', 'build'], cwd=DST, capture_output=True, text=True)
        txt = r.stdout + r.stderr
        failed, mods = [], set()
        for m in re.finditer(r'error: (Verif/\S+?\.lean):(\d+):\d+', txt):
            f, l = m.group(1), int(m.group(2))
            d = decl_at(os.path.join(DST, f), l)
            mods.add(f[:-5].replace('/', '.'))
            if d not in failed:
                failed.append(d)
        # modules for which the check ended without an error message (out of memory or time)
        for m in re.findall(r'✖ \[\d+/\d+\] Building (Verif\S+)', txt):
            if m not in mods:
                mods.add(m); failed.append('module %s (check aborted)' % m)
        # modules that could not be checked because one they import failed
        blocked = set(mods)
        changed = True
        while changed:
            changed = False
            for m, ds in imp.items():
                if m not in blocked and any(d in blocked for d in ds):
                    blocked.add(m); changed = True
        ths = [t.split('.')[-1] for t in cl[prop]['theorems']] if prop in cl else []
        hit = [t for t in ths if t in failed]
        unchecked = [t for t in ths if t not in failed and where.get(t) in blocked and where.get(t) not in mods]
        rec = dict(definition=definition, edit='%s  ==>  %s' % (old, new), breaks='%s: %s' % (prop, claim), failed=failed,
                   not_checked_because_a_lemma_failed=unchecked, tightened=[])
        print(prop, definition, '|', 'SURVIVED' if not failed else ('claim theorems failed: %s' % hit if hit else 'others failed'), failed[:8], 'unchecked', unchecked, flush=True)
        out.write(json.dumps(rec) + '\n'); out.flush()

main()
