#!/usr/bin/env python3
"""Run seeded bugs in a scratch copy.

usage: mutate.py FILE...   each FILE holds a list MUTANTS of dicts
  def, file, old, new, edit, claim, also: further edits (file, old, new)
The scratch copy is /tmp/mut/lean.  One line per mutant is appended to seeded/LOG.jsonl.
"""
import json, os, re, subprocess, sys, threading, time

root = os.path.dirname(os.path.dirname(os.path.abspath(__file__)))
scratch = '/tmp/mut/lean'
base = '/tmp/mut/base'  # state of the project when the run starts

def decl_at(path, line):
    name = None
    lines = open(path).read().split('\n')
    # an error can be reported at the comment in front of a declaration
    if lines[line - 1].startswith('/--'):
        while line < len(lines) and not re.match(r'(?:@\[.*\]\s*)?(?:private |protected |noncomputable )*(theorem|lemma|def|example|instance|structure|abbrev)\b', lines[line - 1]):
            line += 1
    for i, l in enumerate(lines, 1):
        if i > line:
            break
        m = re.match(r'\s*(?:@\[[^\]]*\]\s*)?(?:private\s+|protected\s+|noncomputable\s+)*(theorem|lemma|def|example|instance|structure|abbrev)\s*(\S*)', l)
        if m:
            name = m.group(2) if m.group(1) != 'example' else 'example (line %d)' % i
    return name

def load_deps():
    out = subprocess.run(['lake', 'env', 'lean', root + '/tools/deps.lean.txt'], cwd=base, capture_output=True, text=True).stdout
    deps = {}
    for l in out.splitlines():
        a = l.split()
        if re.match(r'Verif\.C\d\d', a[0]):
            deps[a[0][6:]] = set(x[6:].split('.', 1)[1] if x[6:].startswith('Stock.') else x[6:] for x in a[1:])
    return deps

def watch(stop):
    # a proof that does not apply any more can make the elaborator use all the memory
    while not stop.is_set():
        for l in subprocess.run(['ps', '-eo', 'pid,rss,args'], capture_output=True, text=True).stdout.splitlines()[1:]:
            a = l.split(None, 2)
            if scratch in a[2] and '/bin/lean ' in a[2] and int(a[1]) > 6500000:
                subprocess.run(['kill', '-9', a[0]])
        time.sleep(1)

def run(m):
    subprocess.run(['rm', '-rf', scratch], check=True); os.makedirs('/tmp/mut', exist_ok=True)
    subprocess.run(['cp', '-a', base, scratch], check=True)
    p = os.path.join(scratch, 'Verif', m['file'])
    s = open(p).read()
    if s.count(m['old']) < 1:
        print('NOT FOUND', m['def'], m['edit']); return None
    s = s.replace(m['old'], m['new'], 1 if not m.get('all') else -1)
    open(p, 'w').write(s)
    for file, old, new in m.get('also', []):
        p = os.path.join(scratch, 'Verif', file)
        s = open(p).read()
        if s.count(old) < 1:
            print('NOT FOUND', m['def'], m['edit']); return None
        open(p, 'w').write(s.replace(old, new, 1))
    stop = threading.Event()
    th = threading.Thread(target=watch, args=(stop,)); th.start()
    r = subprocess.run(['lake', 'build'], cwd=scratch, capture_output=True, text=True, timeout=3000)
    stop.set(); th.join()
    out = r.stdout + r.stderr
    failed = []
    for mm in re.finditer(r'error: (Verif/\S+?\.lean):(\d+):\d+', out):
        d = decl_at(os.path.join(scratch, mm.group(1)), int(mm.group(2)))
        f = mm.group(1)[6:-5].replace('/', '.') + ': ' + str(d)
        if f not in failed:
            failed.append(f)
    if r.returncode != 0 and not failed:
        failed = sorted(set(x + ': out of memory' for x in re.findall(r'^- Verif\.(\S+)$', out, re.M)))
    mods = re.findall(r'^- (Verif\S*)$', out, re.M)
    return r.returncode, failed, mods

def main():
    os.makedirs('/tmp/mut', exist_ok=True)
    subprocess.run(['rm', '-rf', base], check=True)
    subprocess.run(['cp', '-a', root + '/lean', base], check=True)
    # without this every mutant counts as killed when the base is broken
    if subprocess.run(['lake', 'build'], cwd=base, capture_output=True).returncode != 0:
        sys.exit('the unchanged project does not build')
    deps = load_deps()
    if not deps:
        sys.exit('no dependencies of theorems found')
    for f in sys.argv[1:]:
        ns = {}
        exec(open(f).read(), ns)
        for m in ns['MUTANTS']:
            x = run(m)
            if x is None:
                continue
            rc, failed, mods = x
            names = set(f.split(': ')[1] for f in failed)
            for f in failed:
                if f.endswith('out of memory'):  # all that is proved in the file
                    src = os.path.join(root, 'lean/Verif', f.split(':')[0].replace('.', '/') + '.lean')
                    names |= set(re.findall(r'^theorem (\S+)', open(src).read(), re.M))
            props = sorted(k for k, v in deps.items() if v & names)
            rec = {'definition': m['def'], 'edit': m['edit'], 'claim': m['claim'],
                   'failed': props, 'first_errors': failed, 'tightened': m.get('tightened', [])}
            if m.get('note'):
                rec['note'] = m['note']
            print('SURVIVED' if rc == 0 else 'killed', m['def'], '|', m['edit'], '|', props[:5], failed[:3], flush=True)
            if rc == 0:
                rec['survived'] = True
            with open(root + '/seeded/LOG.jsonl', 'a') as o:
                o.write(json.dumps(rec) + '\n')

main()
