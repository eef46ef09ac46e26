"""Names defined in two modules (run in lean/)."""
import re,glob,collections
d=collections.defaultdict(set)
for f in glob.glob('Verif/**/*.lean',recursive=True):
    for l in open(f):
        m=re.match(r'(?:@\[.*\] )?(?:noncomputable |protected )?(?:abbrev|def|theorem|structure|inductive|lemma) ([^\s:({\[]+)',l)
        if m: d[m.group(1)].add(f)
for k,v in sorted(d.items()):
    if len(v)>1: print(k,sorted(v))
