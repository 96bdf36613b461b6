import re,sys,glob
f=sys.argv[1]
pat=re.compile(r'^(?:@\[.*?\] *)?(?:private +|noncomputable +)*(?:theorem|def|structure|inductive|abbrev|lemma|class) +([^\s:({\[]+)',re.M)
mine=set(pat.findall(open(f).read()))
for g in glob.glob('/verif/lean/Verif/**/*.lean',recursive=True):
    if g.endswith(f.split('Verif/')[-1]): continue
    c=mine & set(pat.findall(open(g).read()))
    if c: print(g.split('/')[-1],c)
