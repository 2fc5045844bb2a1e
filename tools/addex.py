"""Insert examples beside theorems: reads blocks `@@ File.lean theorem` followed by Lean text, inserts the text after the theorem.
usage: addex.py blocks.txt"""
import re, sys
txt = open(sys.argv[1]).read()
for blk in re.split(r'(?m)^@@ ', txt)[1:]:
    head, bodytext = blk.split('\n', 1)
    f, name = head.split()
    p = '/verif/lean/Verif/' + f
    s = open(p).read()
    m = re.search(r'(?m)^(?:@\[[^\]]*\]\s*)?(?:private |protected )?(?:theorem|lemma) ' + re.escape(name) + r'(?=[\s:({\[])', s)
    if not m: print('NOT FOUND', f, name); continue
    e = re.compile(r'\n\n(?=\S)').search(s, m.end())
    k = e.start() if e else len(s.rstrip('\n'))
    s = s[:k] + '\n\n' + bodytext.strip('\n') + s[k:]
    open(p, 'w').write(s)
