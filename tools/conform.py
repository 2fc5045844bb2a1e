"""Translate the repository's own forest and tree tests (weave/src/{matrix,zdd2}, weave/tests/forest) into
Lean examples about the model.  Items (string literals) become their rank among the literals of the test.
usage: conform.py [--eval]   writes lean/Verif/Conform/*.lean (or an #eval file on stdout)"""
import re, sys, os
REPO = '/repo/'
TOK = re.compile(r'\s*(//[^\n]*|"(?:[^"\\]|\\.)*"|\d+|::|[A-Za-z_][A-Za-z_0-9]*!?|->|=>|[-+*&.,;:(){}\[\]<>=#\'|/!?@$])')

def lex(s):
    out, i = [], 0
    while i < len(s):
        m = TOK.match(s, i)
        if not m:
            if s[i:].strip() == '': break
            raise Exception('lex ' + s[i:i+40])
        if not m.group(1).startswith('//'): out.append(m.group(1))
        i = m.end()
    return out

class P:
    def __init__(self, toks): self.t, self.i = toks, 0
    def peek(self, k=0): return self.t[self.i+k] if self.i+k < len(self.t) else None
    def eat(self, x=None):
        v = self.t[self.i]
        if x is not None and v != x: raise Exception('want %s got %s at %s' % (x, v, self.t[self.i-5:self.i+5]))
        self.i += 1; return v
    def generics(self):
        if self.peek() != '<': return
        d = 0
        while True:
            v = self.eat()
            if v == '<': d += 1
            if v == '>': d -= 1
            if d == 0: return
    def args(self, close):
        a = []
        while self.peek() != close:
            a.append(self.expr())
            if self.peek() == ',': self.eat()
        self.eat(close); return a
    def expr(self):
        v = self.peek()
        if v == '&': self.eat(); return self.expr()
        if v == '(':
            self.eat(); a = self.args(')'); e = ('tuple', a) if len(a) != 1 else a[0]
        elif v == '[': self.eat(); e = ('list', self.args(']'))
        elif v.startswith('"'): self.eat(); e = ('str', v[1:-1])
        elif v.isdigit(): self.eat(); e = ('num', int(v))
        elif v == 'vec!': self.eat(); self.eat('['); e = ('list', self.args(']'))
        elif v in ('true', 'false'): self.eat(); e = ('bool', v)
        else:
            path = [self.eat()]
            while self.peek() == '::':
                self.eat()
                if self.peek() == '<': self.generics()
                else: path.append(self.eat())
            if self.peek() == '(':
                self.eat(); e = ('call', path, self.args(')'))
            else: e = ('var', path[-1]) if len(path) == 1 else ('path', path)
        while self.peek() == '.':
            self.eat(); m = self.eat()
            if self.peek() == '::': self.eat(); self.generics()
            self.eat('('); e = ('call', ['_', m], [e] + self.args(')'))
        return e
    def stmt(self):
        if self.peek() == 'let':
            self.eat()
            if self.peek() == '(':
                pat = []
                self.eat()
                while self.peek() != ')':
                    v = self.eat()
                    if v != ',': pat.append(v)
                self.eat()
            else: pat = self.eat()
            if self.peek() == ':':
                while self.peek() != '=': self.eat()
            self.eat('='); e = self.expr(); self.eat(';'); return ('let', pat, e)
        if self.peek() == 'assert_eq!':
            self.eat(); self.eat('('); a = self.args(')'); self.eat(';'); return ('assert', a[0], a[1])
        e = self.expr()
        if self.peek() == ';': self.eat()
        return ('ret', e)
    def block(self):
        out = []
        while self.peek() is not None: out.append(self.stmt())
        return out

def body(s, i):
    d, j = 0, s.index('{', i)
    k = j
    while True:
        if s[k] == '{': d += 1
        if s[k] == '}':
            d -= 1
            if d == 0: return s[j+1:k]
        k += 1

def fns(path):
    s = open(REPO + path).read()
    for m in re.finditer(r'fn (\w+)', s):
        yield m.group(1), s[:m.start()].count('\n') + 1, s[max(0, m.start()-40):m.start()], s, m.start()

def subst(e, env):
    k = e[0]
    if k == 'var': return env[e[1]]
    if k in ('tuple', 'list'): return (k, [subst(x, env) for x in e[1]])
    if k == 'call': return (k, e[1], [subst(x, env) for x in e[2]])
    return e

def run(stmts):
    env, asserts, ret = {}, [], None
    for st in stmts:
        if st[0] == 'let':
            v = subst(st[2], env)
            env[st[1]] = v
        elif st[0] == 'assert': asserts.append((subst(st[1], env), subst(st[2], env)))
        else: ret = subst(st[1], env)
    return asserts, ret

def strs(e, acc):
    if e[0] == 'str': acc.add(e[1])
    elif e[0] in ('tuple', 'list'):
        for x in e[1]: strs(x, acc)
    elif e[0] == 'call':
        for x in e[2]: strs(x, acc)

OPS = {'union': 'union', 'intersect': 'intersect', 'product': 'product'}
SUB = {'subset': 'subset', 'subset_not': 'subsetNot', 'subset_all': 'subsetAll', 'subset_none': 'subsetNone'}

class Emit:
    """kinds: F forest, T tree, V value; P value listed in hash order"""
    def __init__(self, backend, rank): self.b, self.rank = backend, rank
    def go(self, e):
        k, b = e[0], self.b
        if k == 'str': return 'V', str(self.rank[e[1]])
        if k == 'num': return 'V', str(e[1])
        if k == 'bool': return 'V', e[1]
        if k == 'list': return 'V', '[' + ', '.join(self.go(x)[1] for x in e[1]) + ']'
        if k == 'tuple': return 'V', '(' + ', '.join(self.go(x)[1] for x in e[1]) + ')'
        path, args = e[1], e[2]
        f = path[-1]
        if f == 'clone': return self.go(args[0])
        if path[0] in ('Forest', 'F') and f in ('empty', 'unit', 'many', 'unique'):
            return 'F', '(%s.%s %s)' % (b, f, ' '.join(self.go(a)[1] for a in args)) if args else '%s.empty' % b
        if path[0] == 'Tree' and f in ('empty', 'one', 'many', 'default'):
            f = 'empty' if f == 'default' else f
            return 'T', '(tree.%s %s)' % (f, ' '.join(self.go(a)[1] for a in args)) if args else 'tree.empty'
        if path[0] == 'Vec' and f == 'new': return 'V', '[]'
        ks = [self.go(a) for a in args]
        if f in OPS:
            if ks[0][0] == 'F': return 'F', '(%s.%s %s %s)' % (b, f, ks[0][1], ks[1][1])
            if f == 'product': return 'F', '(%s.treeProduct %s %s)' % (b, ks[0][1], ks[1][1])
            return 'T', '(tree.%s %s %s)' % (f, ks[0][1], ks[1][1])
        if f in SUB: return 'F', '(%s.%s %s %s)' % (b, SUB[f], ks[0][1], ks[1][1])
        if f in ('len', 'is_empty', 'trees', 'occurrences', 'into'):
            if ks[0][0] == 'T':
                n = {'len': 'len', 'is_empty': 'isEmpty', 'into': 'items'}[f]
                return ('P' if n == 'items' else 'V'), '(tree.%s %s)' % (n, ks[0][1])
            n = {'len': 'len', 'is_empty': 'isEmpty', 'trees': 'trees', 'into': 'trees', 'occurrences': 'occurrences'}[f]
            return ('P' if n == 'trees' and b == 'matrix' else 'O'), '(%s.%s %s)' % (b, n, ks[0][1])
        raise Exception('emit %s' % (e,))

def emit(backend, asserts):
    s = set()
    for a, c in asserts: strs(a, s); strs(c, s)
    rank = {x: i + 1 for i, x in enumerate(sorted(s))}
    out = []
    for a, c in asserts:
        em = Emit(backend, rank)
        (ka, la), (kc, lc) = em.go(a), em.go(c)
        if kc == 'P': out.append('(%s).isPerm %s = true' % (lc.strip('()') if False else lc, la))
        elif kc == 'O' and backend == 'zdd2': out.append('%s = some %s' % (lc, la))
        else: out.append('%s = %s' % (lc, la))
    return out

def collect():
    tests = []   # (group, file, line, name, backend, props)
    for backend in ('matrix', 'zdd2'):
        for f in ('forest/mod', 'forest/intersect', 'forest/union', 'forest/product', 'forest/subset',
                  'tree/mod', 'tree/intersect', 'tree/union', 'tree/product'):
            path = 'weave/src/%s/%s.rs' % (backend, f)
            for name, line, before, s, i in fns(path):
                if '#[test]' not in before: continue
                try: asserts, _ = run(P(lex(body(s, i))).block())
                except Exception as ex:
                    print('SKIP', path, name, ex, file=sys.stderr); continue
                tests.append((backend, path, line, name, emit(backend, asserts)))
        mods = open(REPO + 'weave/tests/forest/mod.rs').read()
        for op in ('intersect', 'union', 'product', 'subset', 'subset_not', 'subset_all', 'subset_none', 'occurrences'):
            used = re.findall(r'\b%s!\(\$forest, (\w+)\)' % op, mods)
            path = 'weave/tests/forest/%s.rs' % op
            for name, line, before, s, i in fns(path):
                if name not in used: print('UNUSED', path, name, file=sys.stderr); continue
                _, ret = run(P(lex(body(s, i))).block())
                r = ret[1]
                if op in OPS:
                    asserts = [(r[2], ('call', ['F', op], [r[0], r[1]])), (r[2], ('call', ['F', op], [r[1], r[0]]))]
                elif op == 'occurrences': asserts = [(r[1], ('call', ['F', op], [r[0]]))]
                else: asserts = [(r[2], ('call', ['F', op], [r[0], r[1]]))]
                tests.append((backend, path, line, name, emit(backend, asserts)))
    return tests


def lean(backend, path, p):
    """tactic for one assertion"""
    if 'zdd2.' in p: return 'by zrun'
    if backend == 'matrix' and re.match(r'\(?matrix\.(empty|unit|many|unique|union|intersect|product|subset\w*|treeProduct)\b', p):
        return 'eq_of_same (by decide +kernel)'
    if re.match(r'\(?tree\.(empty|one|many|union|intersect)\b', p): return 'eq_of_sameT (by decide +kernel)'
    return 'by decide +kernel'

def write():
    groups = {}
    for b, path, line, name, props in collect():
        g = 'Tree' if '/tree/' in path else ('Matrix' if b == 'matrix' else 'Forest')
        if g == 'Tree' and b == 'zdd2': g = 'Tree2'
        groups.setdefault(g, []).append((b, path, line, name, props))
    for g, ts in groups.items():
        out = ['import Verif.Conform.Run', '', '/-!',
               '# The repository\'s own tests, replayed on the model (%s)' % g, '',
               'Generated by tools/conform.py from the test functions cited; items are ranks of string literals.', '-/', '',
               'namespace Verif.Conform.%s' % ('Replay' + g), 'open Verif.Conform', '']
        for b, path, line, name, props in ts:
            out.append('/-! %s:%d `%s` -/' % (path, line, name))
            for p in props:
                q = p
                out.append('example : %s :=\n  %s' % (q, lean(b, path, p)))
            out.append('')
        out.append('end Verif.Conform.%s' % ('Replay' + g))
        txt = []
        for l in '\n'.join(out).split('\n'):
            while len(l) > 110:
                k = l.rfind(' ', 0, 110)
                txt.append(l[:k]); l = '    ' + l[k+1:]
            txt.append(l)
        open('/verif/lean/Verif/Conform/%s.lean' % g, 'w').write('\n'.join(txt) + '\n')
        print(g, len(ts), 'tests', sum(len(t[4]) for t in ts), 'assertions')

if __name__ == '__main__':
    write()
