#!/usr/bin/env python3
"""Try wrong models: `seed.py mutations.json`.

Each mutation is {"file", "old", "new", "definition", "edit", "claim", "property"}.  It is applied to a copy of the Lake
project under /tmp/seed; the declarations that no longer check are found, and one line per mutation is added to
/verif/seeded/LOG.jsonl (with --dry only printed)."""
import json, os, re, subprocess, sys

SRC, DST = '/verif/lean', '/tmp/seed/lean'
dry = '--dry' in sys.argv
muts = json.load(open([a for a in sys.argv[1:] if not a.startswith('--')][0]))
manifest = {c['property']: c['theorems'] for c in json.load(open('/verif/MANIFEST.json'))['claims']}

# the sources as they are when the batch starts
BASE = '/tmp/seed/base'
os.makedirs('/tmp/seed', exist_ok=True)
subprocess.run(['rm', '-rf', BASE], check=True)
subprocess.run(['cp', '-a', SRC, BASE], check=True)

def fresh():
    subprocess.run(['rm', '-rf', DST], check=True)
    subprocess.run(['cp', '-a', BASE, DST], check=True)

def build():
    r = subprocess.run(['lake', 'build'], cwd=DST, capture_output=True, text=True, timeout=3600)
    return r.stdout + r.stderr

def strip(path, line):
    """Blank out the example starting at `line`, up to the next empty line."""
    lines = open(path).read().split('\n')
    i = line - 1
    while i < len(lines) and lines[i].strip():
        lines[i] = '-- ' if i > line - 1 else 'theorem stripped_%d : True := trivial' % line
        i += 1
    open(path, 'w').write('\n'.join(lines))

def give_up(path, line):
    """Replace the proof of the theorem at `line` by `sorry` (in the scratch copy only), to see whether later ones fail."""
    lines = open(path).read().split('\n')
    starts = [i for i, _, _ in decls(path)]
    end = min([i - 1 for i in starts if i > line] + [len(lines)])
    # leave comments and attributes of the next declaration alone
    block = lines[line - 1:end]
    k = next((j for j, l in enumerate(block) if j and not l.strip()), len(block))
    body, rest = block[:k], block[k:]
    for j, l in enumerate(body):
        if l.rstrip().endswith(':= by') or l.rstrip().endswith(':='):
            body[j] = l.rstrip()[:l.rstrip().rindex(':=')] + ':= by sorry'
            for q in range(j + 1, len(body)): body[q] = '--'
            break
        if ' := by ' in l or ' := ' in l and j == len(body) - 1:
            body[j] = l[:l.rindex(' := ')] + ' := by sorry'
            for q in range(j + 1, len(body)): body[q] = '--'
            break
    else: return False
    lines[line - 1:end] = body + rest
    open(path, 'w').write('\n'.join(lines))
    return True

decl = re.compile(r'^(?:@\[[^\]]*\]\s*)?(?:private |protected |noncomputable )*(theorem|lemma|def|abbrev|instance|example|inductive|structure)\s*([^\s:({\[]*)')

def decls(path):
    out = []
    for i, l in enumerate(open(path), 1):
        m = decl.match(l)
        if m: out.append((i, m.group(1), m.group(2) or '(anonymous)'))
    return out

def enclosing(path, line):
    name = None
    for i, k, n in decls(path):
        if i <= line: name = (k, n, i)
    return name

def together(path, line):
    """The declarations that are proved together with the one at `line`, in a `mutual` block."""
    lines = open(path).read().split('\n')
    a = next((i for i in range(line - 1, -1, -1) if lines[i].strip() in ('mutual', 'end')), -1)
    if a < 0 or lines[a].strip() == 'end': return []
    b = next((i for i in range(line - 1, len(lines)) if lines[i].strip() == 'end'), len(lines))
    return [n for i, _, n in decls(path) if a < i <= b]

# which declarations use which, from the compiled project
DEPS = '/tmp/seed/deps.txt'
SCRIPT = r'''
import Verif
open Lean

run_cmd do
  let env ← getEnv
  let mine : Name → Bool := fun n =>
    match env.getModuleIdxFor? n with
    | some i => (`Verif).isPrefixOf (env.header.moduleNames[i.toNat]!)
    | none => false
  let h ← IO.FS.Handle.mk "/tmp/seed/deps.txt" .write
  for (n, ci) in env.constants.map₁.toList do
    if mine n then
      let some i := env.getModuleIdxFor? n | continue
      let used := (ci.type.getUsedConstants ++ (ci.value? (allowOpaque := true)).elim #[] Expr.getUsedConstants).toList.filter mine
      h.putStrLn (s!"{env.header.moduleNames[i.toNat]!}\t{n}\t" ++ " ".intercalate (used.map toString))
'''
newest = max(os.path.getmtime(os.path.join(r, f)) for r, _, fs in os.walk(SRC + '/Verif') for f in fs if f.endswith('.lean'))
if not os.path.exists(DEPS) or os.path.getmtime(DEPS) < newest:
    subprocess.run(['lake', 'build'], cwd=SRC, check=True, capture_output=True)
    open('/tmp/seed/deps.lean', 'w').write(SCRIPT)
    subprocess.run(['lake', 'env', 'lean', '/tmp/seed/deps.lean'], cwd=SRC, check=True)
users, inmod = {}, {}
for line in open(DEPS):
    mod, name, used = line.rstrip('\n').split('\t')
    inmod.setdefault(mod, []).append(name)
    for u in used.split(): users.setdefault(u, []).append(name)

def affected(failed):
    """What depends on declarations, given as pairs of a file and a name without its namespace."""
    bad = {n for f, d in failed for n in inmod.get(f[:-5].replace('/', '.'), []) if n == d or n.endswith('.' + d)}
    todo = list(bad)
    while todo:
        for u in users.get(todo.pop(), []):
            if u not in bad: bad.add(u); todo.append(u)
    return bad

for m in muts:
    fresh()
    path = os.path.join(DST, m['file'])
    orig = open(path).read()
    cnt = orig.count(m['old'])
    if cnt != m.get('count', 1):
        print('!! %s: pattern occurs %d times: %s' % (m['file'], cnt, m['old'][:60])); continue
    open(path, 'w').write(orig.replace(m['old'], m['new']))
    failed, examples, bad = [], [], False
    props = m['property'] if isinstance(m['property'], list) else [m['property']]
    thms = [t for p in props for t in manifest.get(p, [])]
    for _ in range(12):
        out = build()
        fresh_examples, lemmas = set(), set()
        for f, l in re.findall(r'error: (Verif/[\w/]+\.lean):(\d+):', out):
            e = enclosing(os.path.join(DST, f), int(l))
            if e is None: continue
            if e[0] == 'example': fresh_examples.add((f, e[2])); continue
            if f == m['file'] or '/Model/' in f and e[0] in ('def', 'inductive', 'structure', 'abbrev'): bad = True
            else: lemmas.add((f, e[2]))
            failed.append((f, e[1]))
            failed += [(f, n) for n in together(os.path.join(DST, f), int(l))]
        examples += ['%s:%d' % x for x in fresh_examples]
        hit = set(thms) & affected(failed)
        # what fails hides the modules that import its file: leave it out and go on, unless a theorem depends on it
        if bad or hit or not (fresh_examples or lemmas): break
        for f, l in sorted(fresh_examples, reverse=True): strip(os.path.join(DST, f), l)
        if not all([give_up(os.path.join(DST, f), l) for f, l in sorted(lemmas, reverse=True)]): break
    failed = sorted(set(failed)); examples = sorted(set(examples))
    aff = affected(failed)
    props = m['property'] if isinstance(m['property'], list) else [m['property']]
    thms = [t for p in props for t in manifest.get(p, [])]
    hit = sorted(set(thms) & aff)
    survived = sorted(set(thms) - set(hit))
    verdict = 'MODEL DOES NOT COMPILE' if bad else 'caught' if hit else 'NOT CAUGHT'
    rec = {'definition': m['definition'], 'edit': m['edit'], 'claim_broken': m['claim'], 'property': props,
           'theorems_failed': hit, 'declarations_with_errors': sorted({d for _, d in failed}), 'examples_failed': examples,
           'theorems_tightened': m.get('tightened', []), 'caught': bool(hit)}
    print('%s  %s | %s | failed: %s | ex: %d | survived: %s' % (verdict, props, m['edit'], hit, len(examples), survived), flush=True)
    if bad: print(out[:1500])
    if bad: rec.update(theorems_failed=[], caught=False, note='the model does not compile; says nothing about the theorems')
    if not dry:
        with open('/verif/seeded/LOG.jsonl', 'a') as g: g.write(json.dumps(rec) + '\n')
